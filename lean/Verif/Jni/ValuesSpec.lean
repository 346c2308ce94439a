import Verif.Jni.Values
import Verif.Props.JniLayout
/-
What the theorems about values passed through JNI assume: that the generated code belongs to the interface, and that a
value has the type it is passed as.
-/
namespace Verif.Jni
open Verif.Wire (IntTy Val)

/-- The layouts and FFI types are the ones the generator finds for the interface, its types have names of
their own, and the machine does what allocators and strings do. -/
structure World.Good (w : World) : Prop where
  layout : layouts w.nss = some w.layout
  ffi : ffiTypes w.nss = some w.ffi
  names : Verif.Props.JniLayout.DistinctNames w.nss
  machine : w.machine.Ok

/-- Item by item. -/
def AllOf {α β : Type} (p : α → β → Prop) : List α → List β → Prop
  | [], [] => True
  | a :: as, b :: bs => p a b ∧ AllOf p as bs
  | _, _ => False

/-- So many items of a size fit the 2 GiB a `java.nio.ByteBuffer` can have, and have a size at all. -/
def Fits (step : Option Nat) (count : Nat) : Prop := ∃ n, step = some n ∧ 0 < n ∧ count * n < 2 ^ 31

/-- The values that stand for an absent option: a float of each size, and handles that are not positive as
a signed number. -/
def Reserved (t : Ty) (v : Val) : Prop :=
  (t = .f32 ∧ v = .float 0xFFFF_FFFF) ∨ (t = .f64 ∧ v = .float 0xFFFF_FFFF_FFFF_FFFF) ∨
  (∃ n h, t = .iface n ∧ v = .handle h ∧ (h = 0 ∨ 2 ^ 63 ≤ h))

/-- The value has the type, and its nesting is below the number. Left out: values Kotlin cannot tell apart (an option in
an option), options of the values of `Reserved`, lists without room in a buffer, bytes, durations, timestamps and callback interfaces. -/
def World.Typed (w : World) : Nat → Ty → Val → Prop
  | 0, _, _ => False
  | n + 1, t, v =>
    match t, v with
    | .int t, .int x => t.InRange x
    | .f32, .float b => b < 2 ^ 32
    | .f64, .float b => b < 2 ^ 64
    | .bool, .bool _ => True
    | .string, .str s => s.utf8ByteSize < 2 ^ 63
    | .iface _, .handle h => h < 2 ^ 64
    | .option t, .none => .optional t ∈ w.nss.flatten ∧ t ≠ .seq .bytes ∧ ∀ c, t ≠ .callback c
    | .option t, .some v =>
      .optional t ∈ w.nss.flatten ∧ t ≠ .seq .bytes ∧ w.Typed n t v ∧ isNull v = false ∧ ¬ Reserved t v
    | .seq t, .seq vs => (∀ v ∈ vs, w.Typed n t v) ∧ Fits (w.layout.itemSize t) vs.length
    | .set t, .set vs => (∀ v ∈ vs, w.Typed n t v) ∧ Fits (w.layout.itemSize t) vs.length ∧ vs.Nodup
    | .map kt vt, .map es =>
      (∀ e ∈ es, w.Typed n kt e.1 ∧ w.Typed n vt e.2) ∧
      Fits ((w.layout.entry kt vt).map Prod.snd) es.length ∧ (es.map Prod.fst).Nodup
    | .box t, .box v => w.Typed n t v
    | .record name, .record vs =>
      ∃ fields, .record name fields ∈ w.nss.flatten ∧ AllOf (w.Typed n) fields vs
    | .enum name, .variant i vs =>
      i < 2 ^ 31 ∧ ∃ variants fields, .enum name false variants ∈ w.nss.flatten ∧ variants[i]? = some fields ∧
        AllOf (w.Typed n) fields vs
    | .custom name t, v => .custom name t ∈ w.nss.flatten ∧ w.Typed n t v
    | _, _ => False

/-- Records that are passed as one value have it in their first field (see `C71_unit_field_broken`). -/
def World.FirstFields (w : World) : Prop :=
  ∀ n fields, .record n fields ∈ w.nss.flatten → ∀ per, fields.mapM w.ffi.get = some per →
    per.flatten.length = 1 → ∃ p rest, per = p :: rest ∧ p ≠ []

end Verif.Jni
