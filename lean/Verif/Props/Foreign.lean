import Verif.Wire.ForeignSound2
import Verif.Props.Wire
/-
C12-C15: the generated Python, Kotlin, Swift and Ruby code and Rust agree on the wire format.

`repr L v` is the value the language holds for the Rust value `v`. `Deep P env t v` says `P` of `v`
and of everything inside it, each at its own type.
-/
namespace Verif.Props.Foreign
open Verif Verif.Wire Verif.Props.Wire

/-- A value the language can represent: every builtin value in it satisfies `exact`, and its maps
and sets can be built in the language without merging entries. -/
def Readable (L : Lang) (exact : Ty → Val → Prop) (env : Env) : Ty → Val → Prop :=
  Deep (fun t v => exact t v ∧ Compound L env false t v) env

/-- As `Readable`, and no optional holds something that looks like null. -/
def Faithful (L : Lang) (exact : Ty → Val → Prop) (env : Env) : Ty → Val → Prop :=
  Deep (fun t v => exact t v ∧ Compound L env true t v) env

theorem flift_of_fread {L : Lang} {env : Env} {fuel : Nat} {t : Ty} {bs : Bytes} {v : Val}
    (h : fread L env fuel t bs = .ok v []) : flift L env fuel t bs = .ok v [] := by
  simp [flift, h]


theorem deep_record {P : Ty → Val → Prop} {env : Env} {n : String} {ts : List Ty}
    (he : env n = some (.record ts)) (fs : List Val) :
    Deep P env (.named n) (.record fs) ↔ P (.named n) (.record fs) ∧ DeepFields P env ts fs := by
  constructor
  · intro h; simp only [Deep] at h; exact ⟨h.1, h.2 n ts rfl he⟩
  · intro h; simp only [Deep]
    refine ⟨h.1, fun m us e e2 => ?_⟩
    injection e with e; subst e; rw [he] at e2; cases e2; exact h.2

theorem deep_variant {P : Ty → Val → Prop} {env : Env} {n : String} {vs : List (List Ty)}
    {ts : List Ty} {i : Nat} (he : env n = some (.enum vs)) (hi : vs[i]? = some ts)
    (fs : List Val) :
    Deep P env (.named n) (.variant i fs) ↔
      P (.named n) (.variant i fs) ∧ DeepFields P env ts fs := by
  constructor
  · intro h; simp only [Deep] at h; exact ⟨h.1, h.2 n vs ts rfl he hi⟩
  · intro h; simp only [Deep]
    refine ⟨h.1, fun m us ts' e e2 e3 => ?_⟩
    injection e with e; subst e; rw [he] at e2; cases e2
    rw [hi] at e3; cases e3; exact h.2

/-- What has to be checked of `demoPair`. -/
theorem demoPair_deep {P : Ty → Val → Prop}
    (h1 : ∀ v, P (.named "Pair") v) (h2 : P (.int .u8) (.int 200))
    (h3 : P (.map .string (.seq (.int .i64)))
      (.map [(.str "a", .seq [.int (-1), .int 3]), (.str "", .seq [])]))
    (h4 : ∀ s, P .string (.str s)) (h5 : ∀ vs, P (.seq (.int .i64)) (.seq vs))
    (h6 : ∀ z, P (.int .i64) (.int z)) : Deep P demoEnv (.named "Pair") demoPair := by
  unfold demoPair
  rw [deep_record (ts := [.int .u8, .map .string (.seq (.int .i64))]) rfl]
  simp only [DeepFields, Deep, and_true]
  refine ⟨h1 _, h2, h3, ?_⟩
  intro k u e; cases e
  simp only [DeepPairs, Deep, and_true]
  refine ⟨h4 _, ⟨h5 _, ?_⟩, h4 _, h5 _, ?_⟩ <;> intro u e _ <;> cases e <;> simp [DeepAll, Deep, h6]

/-- What has to be checked of `demoTree`. -/
theorem demoTree_deep {P : Ty → Val → Prop}
    (h1 : ∀ v, P (.named "Tree") v) (h2 : ∀ v, P (.box (.named "Tree")) v)
    (h3 : ∀ z, P (.int .i32) (.int z)) (h4 : P (.option .string) .none)
    (h5 : ∀ s, P (.option .string) (.some (.str s))) (h6 : ∀ s, P .string (.str s)) :
    Deep P demoEnv (.named "Tree") demoTree := by
  unfold demoTree
  rw [deep_variant (vs := [[], [.box (.named "Tree"), .int .i32, .option .string]])
    (ts := [.box (.named "Tree"), .int .i32, .option .string]) rfl rfl]
  simp only [DeepFields, Deep, and_true]
  refine ⟨h1 _, ⟨h2 _, ?_⟩, h3 _, h5 _, ?_⟩
  · intro u e; cases e
    refine ⟨h1 _, ?_⟩
    intro n vs ts e e2 e3
    injection e with e; subst e; cases e2; cases e3
    simp only [DeepFields, Deep, and_true]
    refine ⟨⟨h2 _, ?_⟩, h3 _, h4⟩
    intro u e; cases e
    refine ⟨h1 _, ?_⟩
    intro n vs ts e e2 e3
    injection e with e; subst e; cases e2; cases e3
    simp
  · intro u e; cases e; exact h6 _

/-! ### C12 Python -/

/-- C12. What Rust writes, Python reads as the same value, and it consumes exactly those bytes. -/
theorem C12_python_reads_rust (env : Env) (t : Ty) (v : Val) (bs rest : Bytes) (fuel : Nat)
    (ht : HasTy env t v) (hk : Readable Python.lang Python.Exact env t v)
    (hw : write env t v = some bs) (hf : v.depth ≤ fuel) :
    fread Python.lang env fuel t (bs ++ rest) = .ok (repr Python.lang v) rest ∧
      flift Python.lang env fuel t bs = .ok (repr Python.lang v) [] := by
  have h := fun rest => fread_write (Python.readsLike env false) v t bs rest fuel ht hk hw hf
  exact ⟨h rest, flift_of_fread (by simpa using h [])⟩

/-- C12. Python writes the bytes Rust would write for the same value. -/
theorem C12_python_writes_rust (env : Env) (t : Ty) (v : Val) (bs : Bytes) (fuel : Nat)
    (ht : HasTy env t v) (hk : Faithful Python.lang Python.Exact env t v)
    (hw : write env t v = some bs) (hf : v.depth ≤ fuel) :
    fwrite Python.lang env fuel t (repr Python.lang v) = some bs :=
  fwrite_write (Python.writesLike env) v t bs fuel ht hk hw hf

/-- C12. Whatever Python value the generated code manages to write, Rust reads it as the value it
stands for. -/
theorem C12_rust_reads_python (env : Env) (hc : CustomLawful env) (ho : CustomOnto env) (t : Ty)
    (p : Val) (bs rest : Bytes) (fuel : Nat) (hq : p.All Python.Exists)
    (hw : fwrite Python.lang env fuel t p = some bs) :
    ∃ v, HasTy env t v ∧ repr Python.lang v = p ∧
      Verif.Wire.read env (fuel + 1) t (bs ++ rest) = .ok v rest := by
  obtain ⟨v, h1, h2, h3, h4, h5⟩ := fwrite_sound (Python.writesSound env) ho fuel t p bs hq hw
  exact ⟨v, h1, h2, read_write env hc v t bs rest (fuel + 1) h1 h5 h3 h4⟩

/-- C12. Python refuses a buffer with anything after the value. -/
theorem C12_python_junk_rejected (env : Env) (t : Ty) (v : Val) (bs : Bytes) (rest : Bytes)
    (fuel : Nat) (h : flift Python.lang env fuel t bs = .ok v rest) : rest = [] := by
  unfold flift at h
  obtain ⟨w, mid, _, h2⟩ := Res.bind_eq_ok.1 h
  by_cases hm : mid = []
  · subst hm; simp at h2; exact h2.2
  · simp [Python.lang, hm] at h2

/-- The demo values meet the hypotheses. -/
example : Faithful Python.lang Python.Exact demoEnv (.named "Tree") demoTree ∧
    Faithful Python.lang Python.Exact demoEnv (.named "Pair") demoPair := by
  have hh : Python.lang.hashable demoEnv .string = true := by decide +kernel
  refine ⟨demoTree_deep ?_ ?_ ?_ ?_ ?_ ?_, demoPair_deep ?_ ?_ ?_ ?_ ?_ ?_⟩ <;> intros <;>
    simp [Python.Exact, Compound, Wire.repr, reprPairs, reprAll, hh] <;> simp [Python.lang]

example : (Wire.repr Python.lang demoPair).All Python.Exists := by
  have e : Wire.repr Python.lang demoPair = demoPair := by decide +kernel
  rw [e]
  simp [demoPair, Val.All, Val.AllList, Val.AllPairs, Python.Exists, Distinct]

example : fwrite Python.lang demoEnv 5 (.named "Pair") (repr Python.lang demoPair) =
    write demoEnv (.named "Pair") demoPair := by decide +kernel

/-- C12. The part of the claim that fails: `Some(None)` and `None` are the same Python value, so
one of the two does not come back. -/
theorem C12_python_nested_option_broken :
    repr Python.lang (.some .none) = repr Python.lang .none ∧
    write demoEnv (.option (.option .bool)) (.some .none) ≠
      write demoEnv (.option (.option .bool)) .none ∧
    fwrite Python.lang demoEnv 3 (.option (.option .bool)) (repr Python.lang (.some .none)) ≠
      write demoEnv (.option (.option .bool)) (.some .none) := by decide +kernel

/-- C12. A map whose key is a record cannot be read by Python at all. -/
theorem C12_python_record_key_broken :
    ∃ (env : Env) (t : Ty) (v : Val) (bs : Bytes), HasTy env t v ∧ write env t v = some bs ∧
      ∀ fuel, 0 < fuel → ∃ e, fread Python.lang env fuel t bs = .err e := by
  refine ⟨fun n => if n = "P" then some (.record [.bool]) else none, .map (.named "P") .bool,
    .map [(.record [.bool true], .bool true)], [0, 0, 0, 1, 1, 1], ?_, by decide +kernel, ?_⟩
  · simp [HasTy, HasTyPairs, HasTyFields]
  · intro fuel hf
    obtain ⟨k, rfl⟩ : ∃ k, fuel = k + 1 := ⟨fuel - 1, by omega⟩
    refine ⟨.noType, ?_⟩
    have e : Python.lang.readCount ([0, 0, 0, 1, 1, 1] : Bytes) = .ok 1 [1, 1] := by decide +kernel
    have e2 : Python.lang.hashable
        (fun n => if n = "P" then some (.record [.bool]) else none) (.named "P") = false := by
      decide +kernel
    simp only [fread, Ty.isLeaf]
    rw [e]
    simp only [Res.bind_ok, e2]
    simp

theorem close_up {A B r n : Nat} (h : A = B + r) (h1 : 2 * r ≤ 2 * n + 1000) :
    2 * A ≤ 2 * (B + n) + 1000 := by omega

theorem close_down {A B r n : Nat} (h : A = B + r) (h1 : 2 * n ≤ 2 * r + 1000) :
    2 * (B + n) ≤ 2 * A + 1000 := by omega

theorem scale {k m s r : Nat} (h : 1000000 * k + m = s * 1000000 + r) :
    k * 1000000000 + m * 1000 = s * 1000000000 + r * 1000 := by omega

/-- C12. Rounding to microseconds never moves a duration by more than half a microsecond. -/
theorem C12_python_duration_error (s n : Nat) (rest : Bytes) (hs : s < 2 ^ 64)
    (hn : n < 1000000000) (hb : s < 86400 * 1000000000 - 1) :
    ∃ s' n', Python.readDur (Verif.Wire.writeDur s n ++ rest) = .ok (.dur s' n') rest ∧
      n' < 1000000000 ∧
      2 * (s' * 1000000000 + n') ≤ 2 * (s * 1000000000 + n) + 1000 ∧
      2 * (s * 1000000000 + n) ≤ 2 * (s' * 1000000000 + n') + 1000 := by
  have hr : ∀ n, 2 * (Python.roundThousand n * 1000) ≤ 2 * n + 1000 ∧
      2 * n ≤ 2 * (Python.roundThousand n * 1000) + 1000 := by
    intro n
    unfold Python.roundThousand
    dsimp only
    split
    · omega
    · split
      · omega
      · split <;> omega
  obtain ⟨h1, h2⟩ := hr n
  have hd : Python.timedelta s n = some (s * 1000000 + Python.roundThousand n) := by
    unfold Python.timedelta
    rw [if_pos]
    unfold Python.deltaEnd
    omega
  have e0 : (n : Int).toNat = n := by omega
  have e1 : (s : Int).toNat = s := by omega
  unfold Python.readDur Verif.Wire.writeDur
  rw [List.append_assoc, readInt_writeInt (inRange_u64 hs)]
  simp only [Res.bind_ok, readInt_writeInt (inRange_u32 (show n < 2 ^ 32 by omega))]
  rw [e0, e1, hd]
  generalize Python.roundThousand n = r at h1 h2
  refine ⟨(s * 1000000 + r) / 1000000, (s * 1000000 + r) % 1000000 * 1000, rfl, ?_, ?_, ?_⟩
  · omega
  · exact close_up (scale (Nat.div_add_mod (s * 1000000 + r) 1000000)) h1
  · exact close_down (scale (Nat.div_add_mod (s * 1000000 + r) 1000000)) h2

/-- C12. As in Rust, an instant less than a second before the epoch comes out after it. -/
theorem C12_python_time_broken : ∃ bs, writeTime (-500000000) = some bs ∧
    Python.readTime bs = .ok (.time 500000000) [] := ⟨_, rfl, by decide +kernel⟩

/-- A custom type over `u64`, and one over `bool`, meet the hypotheses on custom types. -/
def customEnv : Env
  | "Id" => some (.custom (.int .u64) (fun n => .int n) fun
      | .int z => some z.toNat
      | _ => none)
  | "Flag" => some (.custom .bool
      (fun n => if n = 0 then .bool false else if n = 1 then .bool true else .int n) fun
      | .bool b => some (if b then 1 else 0)
      | .int z => some z.toNat
      | _ => none)
  | _ => none

example : CustomLawful customEnv ∧ CustomOnto customEnv := by
  constructor
  · intro n t lo li h id
    unfold customEnv at h
    split at h <;> cases h
    · simp
    · by_cases h0 : id = 0
      · simp [h0]
      · by_cases h1 : id = 1 <;> simp [h0, h1]
  · intro n t lo li h low ht
    unfold customEnv at h
    split at h <;> cases h
    · cases low <;> simp [HasTy] at ht
      rename_i z
      refine ⟨z.toNat, ?_⟩
      simp only [IntTy.InRange, IntTy.signed] at ht
      simp at ht ⊢; omega
    · cases low <;> simp [HasTy] at ht
      rename_i b
      cases b
      · exact ⟨0, rfl⟩
      · exact ⟨1, rfl⟩

example : fwrite Python.lang customEnv 3 (.option (.named "Id")) (.int 300) =
    some [1, 0, 0, 0, 0, 0, 0, 1, 44] := by decide +kernel

/-! ### C13 Kotlin -/

/-- C13. What Rust writes, Kotlin reads as the same value. `lossy` stands for whatever the platform
does with malformed UTF-8. -/
theorem C13_kotlin_reads_rust (lossy : Bytes → String) (env : Env) (t : Ty) (v : Val)
    (bs rest : Bytes) (fuel : Nat) (ht : HasTy env t v)
    (hk : Readable (Kotlin.lang lossy) Kotlin.Exact env t v)
    (hw : write env t v = some bs) (hf : v.depth ≤ fuel) :
    fread (Kotlin.lang lossy) env fuel t (bs ++ rest) = .ok (repr (Kotlin.lang lossy) v) rest ∧
      flift (Kotlin.lang lossy) env fuel t bs = .ok (repr (Kotlin.lang lossy) v) [] := by
  have h := fun rest => fread_write (Kotlin.readsLike lossy env false) v t bs rest fuel ht hk hw hf
  exact ⟨h rest, flift_of_fread (by simpa using h [])⟩

/-- C13. Kotlin writes the bytes Rust would write for the same value. -/
theorem C13_kotlin_writes_rust (lossy : Bytes → String) (env : Env) (t : Ty) (v : Val)
    (bs : Bytes) (fuel : Nat) (ht : HasTy env t v)
    (hk : Faithful (Kotlin.lang lossy) Kotlin.Exact env t v)
    (hw : write env t v = some bs) (hf : v.depth ≤ fuel) :
    fwrite (Kotlin.lang lossy) env fuel t (repr (Kotlin.lang lossy) v) = some bs :=
  fwrite_write (Kotlin.writesLike lossy env) v t bs fuel ht hk hw hf

/-- C13. Whatever Kotlin value the generated code writes, Rust reads it as the value it stands
for. -/
theorem C13_rust_reads_kotlin (lossy : Bytes → String) (env : Env) (hc : CustomLawful env)
    (ho : CustomOnto env) (t : Ty) (p : Val) (bs rest : Bytes) (fuel : Nat)
    (hq : p.All Kotlin.Exists) (hw : fwrite (Kotlin.lang lossy) env fuel t p = some bs) :
    ∃ v, HasTy env t v ∧ repr (Kotlin.lang lossy) v = p ∧
      Verif.Wire.read env (fuel + 1) t (bs ++ rest) = .ok v rest := by
  obtain ⟨v, h1, h2, h3, h4, h5⟩ :=
    fwrite_sound (Kotlin.writesSound lossy env) ho fuel t p bs hq hw
  exact ⟨v, h1, h2, read_write env hc v t bs rest (fuel + 1) h1 h5 h3 h4⟩

/-- C13. Kotlin refuses a buffer with anything after the value. -/
theorem C13_kotlin_junk_rejected (lossy : Bytes → String) (env : Env) (t : Ty) (v : Val)
    (bs rest : Bytes) (fuel : Nat) (h : flift (Kotlin.lang lossy) env fuel t bs = .ok v rest) :
    rest = [] := by
  unfold flift at h
  obtain ⟨w, mid, _, h2⟩ := Res.bind_eq_ok.1 h
  by_cases hm : mid = []
  · subst hm; simp at h2; exact h2.2
  · simp [Kotlin.lang, hm] at h2

example (lossy : Bytes → String) :
    Faithful (Kotlin.lang lossy) Kotlin.Exact demoEnv (.named "Tree") demoTree ∧
    Faithful (Kotlin.lang lossy) Kotlin.Exact demoEnv (.named "Pair") demoPair := by
  have hh : (Kotlin.lang lossy).hashable demoEnv .string = true := rfl
  refine ⟨demoTree_deep ?_ ?_ ?_ ?_ ?_ ?_, demoPair_deep ?_ ?_ ?_ ?_ ?_ ?_⟩ <;> intros <;>
    simp [Kotlin.Exact, Compound, Wire.repr, reprPairs, reprAll, hh] <;> simp [Kotlin.lang]

example (lossy : Bytes → String) :
    (Wire.repr (Kotlin.lang lossy) demoPair).All Kotlin.Exists := by
  have e : Wire.repr (Kotlin.lang lossy) demoPair = demoPair := rfl
  rw [e]
  simp [demoPair, Val.All, Val.AllList, Val.AllPairs, Kotlin.Exists, Distinct]

/-- C13. The part of the claim that fails: `Some(None)` and `None` are both `null`. -/
theorem C13_kotlin_nested_option_broken (lossy : Bytes → String) :
    repr (Kotlin.lang lossy) (.some .none) = repr (Kotlin.lang lossy) .none ∧
    write demoEnv (.option (.option .bool)) (.some .none) = some [1, 0] ∧
    fwrite (Kotlin.lang lossy) demoEnv 3 (.option (.option .bool))
      (repr (Kotlin.lang lossy) (.some .none)) = some [0] := by
  refine ⟨rfl, by decide +kernel, rfl⟩

/-- C13. Kotlin takes option tags Rust refuses. -/
theorem C13_kotlin_tag_lenient (lossy : Bytes → String) :
    fread (Kotlin.lang lossy) demoEnv 2 (.option (.int .u8)) [7, 9] = .ok (.int 9) [] ∧
    Verif.Wire.read demoEnv 2 (.option (.int .u8)) [7, 9] = .err .badOption :=
  ⟨rfl, by decide +kernel⟩

/-- C13. As in Rust, an instant less than a second before the epoch comes out after it. -/
theorem C13_kotlin_time_broken : ∃ bs, writeTime (-500000000) = some bs ∧
    Kotlin.readTime bs = .ok (.time 500000000) [] := ⟨_, rfl, by decide +kernel⟩

/-! ### C14 Swift -/

/-- C14 without timestamps and durations, which are floating point in Swift (see Props/SwiftTime.lean):
what Rust writes, Swift reads as the same value. -/
theorem C14_swift_reads_rust_partial (lossy : Bytes → String) (env : Env) (t : Ty) (v : Val)
    (bs rest : Bytes) (fuel : Nat) (ht : HasTy env t v)
    (hk : Readable (Swift.lang lossy) Swift.Exact env t v)
    (hw : write env t v = some bs) (hf : v.depth ≤ fuel) :
    fread (Swift.lang lossy) env fuel t (bs ++ rest) = .ok (repr (Swift.lang lossy) v) rest ∧
      flift (Swift.lang lossy) env fuel t bs = .ok (repr (Swift.lang lossy) v) [] := by
  have h := fun rest => fread_write (Swift.readsLike lossy env false) v t bs rest fuel ht hk hw hf
  exact ⟨h rest, flift_of_fread (by simpa using h [])⟩

/-- C14. Swift writes the bytes Rust would write for the same value. -/
theorem C14_swift_writes_rust_partial (lossy : Bytes → String) (env : Env) (t : Ty) (v : Val)
    (bs : Bytes) (fuel : Nat) (ht : HasTy env t v)
    (hk : Faithful (Swift.lang lossy) Swift.Exact env t v)
    (hw : write env t v = some bs) (hf : v.depth ≤ fuel) :
    fwrite (Swift.lang lossy) env fuel t (repr (Swift.lang lossy) v) = some bs :=
  fwrite_write (Swift.writesLike lossy env) v t bs fuel ht hk hw hf

/-- C14. Whatever Swift value the generated code writes, Rust reads it as the value it stands
for. -/
theorem C14_rust_reads_swift_partial (lossy : Bytes → String) (env : Env) (hc : CustomLawful env)
    (ho : CustomOnto env) (t : Ty) (p : Val) (bs rest : Bytes) (fuel : Nat)
    (hq : p.All Distinct) (hw : fwrite (Swift.lang lossy) env fuel t p = some bs) :
    ∃ v, HasTy env t v ∧ repr (Swift.lang lossy) v = p ∧
      Verif.Wire.read env (fuel + 1) t (bs ++ rest) = .ok v rest := by
  obtain ⟨v, h1, h2, h3, h4, h5⟩ :=
    fwrite_sound (Swift.writesSound lossy env) ho fuel t p bs hq hw
  exact ⟨v, h1, h2, read_write env hc v t bs rest (fuel + 1) h1 h5 h3 h4⟩

/-- C14. Swift refuses a buffer with anything after the value. -/
theorem C14_swift_junk_rejected (lossy : Bytes → String) (env : Env) (t : Ty) (v : Val)
    (bs rest : Bytes) (fuel : Nat) (h : flift (Swift.lang lossy) env fuel t bs = .ok v rest) :
    rest = [] := by
  unfold flift at h
  obtain ⟨w, mid, _, h2⟩ := Res.bind_eq_ok.1 h
  by_cases hm : mid = []
  · subst hm; simp at h2; exact h2.2
  · simp [Swift.lang, hm] at h2

mutual
/-- Swift's optionals nest, so distinct Rust values without boxes and custom types stay distinct. -/
theorem swift_repr_id (lossy : Bytes → String) :
    ∀ v : Val, v.All (fun w => (∀ x, w ≠ .box x) ∧ ∀ i x, w ≠ .custom i x) →
      repr (Swift.lang lossy) v = v
  | .some v, h => by
    simp only [Val.All] at h
    have e : Wire.repr (Swift.lang lossy) (.some v) = .some (Wire.repr (Swift.lang lossy) v) := rfl
    rw [e, swift_repr_id lossy v h.2]
  | .seq vs, h => by
    simp only [Val.All] at h; simp [Wire.repr, swift_reprAll_id lossy vs h.2]
  | .map es, h => by
    simp only [Val.All] at h; simp [Wire.repr, swift_reprPairs_id lossy es h.2]
  | .set vs, h => by
    simp only [Val.All] at h; simp [Wire.repr, swift_reprAll_id lossy vs h.2]
  | .box v, h => by simp only [Val.All] at h; exact absurd rfl (h.1.1 v)
  | .record vs, h => by
    simp only [Val.All] at h; simp [Wire.repr, swift_reprAll_id lossy vs h.2]
  | .variant i vs, h => by
    simp only [Val.All] at h; simp [Wire.repr, swift_reprAll_id lossy vs h.2]
  | .custom i v, h => by simp only [Val.All] at h; exact absurd rfl (h.1.2 i v)
  | .int _, _ => rfl
  | .float _, _ => rfl
  | .bool _, _ => rfl
  | .str _, _ => rfl
  | .time _, _ => rfl
  | .dur _ _, _ => rfl
  | .handle _, _ => rfl
  | .none, _ => rfl
theorem swift_reprAll_id (lossy : Bytes → String) :
    ∀ vs : List Val, Val.AllList (fun w => (∀ x, w ≠ .box x) ∧ ∀ i x, w ≠ .custom i x) vs →
      reprAll (Swift.lang lossy) vs = vs
  | [], _ => rfl
  | v :: vs, h => by
    simp only [Val.AllList] at h
    simp [reprAll, swift_repr_id lossy v h.1, swift_reprAll_id lossy vs h.2]
theorem swift_reprPairs_id (lossy : Bytes → String) :
    ∀ es : List (Val × Val), Val.AllPairs (fun w => (∀ x, w ≠ .box x) ∧ ∀ i x, w ≠ .custom i x) es →
      reprPairs (Swift.lang lossy) es = es
  | [], _ => rfl
  | (k, v) :: es, h => by
    simp only [Val.AllPairs] at h
    simp [reprPairs, swift_repr_id lossy k h.1, swift_repr_id lossy v h.2.1,
      swift_reprPairs_id lossy es h.2.2]
end

example (lossy : Bytes → String) :
    Faithful (Swift.lang lossy) Swift.Exact demoEnv (.named "Tree") demoTree ∧
    Faithful (Swift.lang lossy) Swift.Exact demoEnv (.named "Pair") demoPair ∧
    Faithful (Swift.lang lossy) Swift.Exact demoEnv (.option (.option .bool)) (.some .none) := by
  have hh : (Swift.lang lossy).hashable demoEnv .string = true := rfl
  refine ⟨demoTree_deep ?_ ?_ ?_ ?_ ?_ ?_, demoPair_deep ?_ ?_ ?_ ?_ ?_ ?_, ?_⟩ <;> intros <;>
    simp [Faithful, Deep, Swift.Exact, Compound, Wire.repr, reprPairs, reprAll, hh] <;>
    simp [Swift.lang]

example (lossy : Bytes → String) : (Wire.repr (Swift.lang lossy) demoPair).All Distinct := by
  have e : Wire.repr (Swift.lang lossy) demoPair = demoPair := rfl
  rw [e]
  simp [demoPair, Val.All, Val.AllList, Val.AllPairs, Distinct]

/-! ### C15 Ruby -/

/-- C15 for `u8` up to 127 and durations below 2^63 seconds: what Rust writes, Ruby reads as the
same value. -/
theorem C15_ruby_reads_rust_partial (env : Env) (t : Ty) (v : Val) (bs rest : Bytes) (fuel : Nat)
    (ht : HasTy env t v) (hk : Readable Ruby.lang Ruby.Exact env t v)
    (hw : write env t v = some bs) (hf : v.depth ≤ fuel) :
    fread Ruby.lang env fuel t (bs ++ rest) = .ok (repr Ruby.lang v) rest ∧
      flift Ruby.lang env fuel t bs = .ok (repr Ruby.lang v) [] := by
  have h := fun rest => fread_write (Ruby.readsLike env false) v t bs rest fuel ht hk hw hf
  exact ⟨h rest, flift_of_fread (by simpa using h [])⟩

/-- C15. Ruby writes the bytes Rust would write for the same value (all of `u8` and all durations
included). -/
theorem C15_ruby_writes_rust (env : Env) (t : Ty) (v : Val) (bs : Bytes) (fuel : Nat)
    (ht : HasTy env t v) (hk : Deep (Compound Ruby.lang env true) env t v)
    (hw : write env t v = some bs) (hf : v.depth ≤ fuel) :
    fwrite Ruby.lang env fuel t (repr Ruby.lang v) = some bs :=
  fwrite_write (Ruby.writesLike env) v t bs fuel ht hk hw hf

/-- C15. Whatever Ruby value the generated code writes, Rust reads it as the value it stands for. -/
theorem C15_rust_reads_ruby (env : Env) (hc : CustomLawful env) (ho : CustomOnto env) (t : Ty)
    (p : Val) (bs rest : Bytes) (fuel : Nat) (hq : p.All Ruby.Exists)
    (hw : fwrite Ruby.lang env fuel t p = some bs) :
    ∃ v, HasTy env t v ∧ repr Ruby.lang v = p ∧
      Verif.Wire.read env (fuel + 1) t (bs ++ rest) = .ok v rest := by
  obtain ⟨v, h1, h2, h3, h4, h5⟩ := fwrite_sound (Ruby.writesSound env) ho fuel t p bs hq hw
  exact ⟨v, h1, h2, read_write env hc v t bs rest (fuel + 1) h1 h5 h3 h4⟩

example : Readable Ruby.lang Ruby.Exact demoEnv (.named "Tree") demoTree ∧
    Deep (Compound Ruby.lang demoEnv true) demoEnv (.named "Pair") demoPair := by
  have hh : Ruby.lang.hashable demoEnv .string = true := rfl
  refine ⟨demoTree_deep ?_ ?_ ?_ ?_ ?_ ?_, demoPair_deep ?_ ?_ ?_ ?_ ?_ ?_⟩ <;> intros <;>
    simp [Ruby.Exact, Compound, Wire.repr, reprPairs, reprAll, hh] <;> simp [Ruby.lang]

example : (Wire.repr Ruby.lang demoPair).All Ruby.Exists := by
  have e : Wire.repr Ruby.lang demoPair = demoPair := by decide +kernel
  rw [e]
  simp [demoPair, Val.All, Val.AllList, Val.AllPairs, Ruby.Exists]
  decide

/-- C15. The part that fails: every `u8` above 127 reads as a negative number. -/
theorem C15_ruby_u8_broken (z : Int) (h1 : 128 ≤ z) (h2 : z < 256) (rest : Bytes) :
    Ruby.readInt .u8 (writeInt .u8 z ++ rest) = .ok (.int (z - 256)) rest := by
  have e : writeInt .u8 z = writeInt .i8 (z - 256) := by
    unfold writeInt toUnsigned
    simp [IntTy.width]
  unfold Ruby.readInt
  rw [e]
  simp only
  rw [readInt_writeInt (by simp [IntTy.InRange, IntTy.signed, IntTy.width]; omega)]
  rfl

/-- C15. The part that fails: every duration of 2^63 seconds or more reads as a negative one. -/
theorem C15_ruby_duration_broken (s n : Nat) (h1 : 2 ^ 63 ≤ s) (h2 : s < 2 ^ 64)
    (hn : n < 1000000000) (rest : Bytes) :
    Ruby.readDur (Verif.Wire.writeDur s n ++ rest) =
      .ok (.time (((s : Int) - 2 ^ 64) * 1000000000 + n)) rest := by
  have e : writeInt .u64 (s : Int) = writeInt .i64 ((s : Int) - 2 ^ 64) := by
    unfold writeInt toUnsigned
    have : ((256 ^ 8 : Nat) : Int) = 2 ^ 64 := by decide
    simp only [IntTy.width, this, Int.sub_emod_right]
  unfold Ruby.readDur Verif.Wire.writeDur
  rw [e, List.append_assoc, readInt_writeInt (inRange_i64 (by omega) (by omega))]
  simp only [Res.bind_ok, readInt_writeInt (inRange_u32 (show n < 2 ^ 32 by omega))]

/-- C15. Ruby never notices bytes after the value: lifting succeeds whatever follows. -/
theorem C15_ruby_junk_accepted (env : Env) (t : Ty) (v : Val) (bs rest : Bytes) (fuel : Nat)
    (ht : HasTy env t v) (hk : Readable Ruby.lang Ruby.Exact env t v)
    (hw : write env t v = some bs) (hf : v.depth ≤ fuel) :
    flift Ruby.lang env fuel t (bs ++ rest) = .ok (repr Ruby.lang v) rest := by
  rw [flift, (C15_ruby_reads_rust_partial env t v bs rest fuel ht hk hw hf).1]
  simp [Ruby.lang]

/-- C15. `Some(None)` and `None` are both `nil`. -/
theorem C15_ruby_nested_option_broken :
    repr Ruby.lang (.some .none) = repr Ruby.lang .none ∧
    write demoEnv (.option (.option .bool)) (.some .none) = some [1, 0] ∧
    fwrite Ruby.lang demoEnv 3 (.option (.option .bool)) (repr Ruby.lang (.some .none))
      = some [0] := by decide +kernel

/-- C15. As in Rust, an instant less than a second before the epoch comes out after it. -/
theorem C15_ruby_time_broken : ∃ bs, writeTime (-500000000) = some bs ∧
    Ruby.readTime bs = .ok (.time 500000000) [] := ⟨_, rfl, by decide +kernel⟩

end Verif.Props.Foreign
