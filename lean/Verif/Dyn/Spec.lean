import Verif.Dyn.Model

/-!
# What values of Python and Ruby mean

What a value stands for where a type is expected, independent of the code that checks and writes it.
-/

namespace Verif.Dyn

open Verif Verif.Wire

/-- What is true, a number, a list of things and bytes in a language, and what stands for the variants of an
enum without fields, of which the name and the discriminants are given. -/
structure Lang where
  truthy : Dyn → Bool
  int : Dyn → Option Int
  double : Dyn → Option Nat
  single : Nat → Option Nat
  bytes : Dyn → Option Bytes
  items : Dyn → Option (List Dyn)
  member : String → List Int → Dyn → Nat → Prop

/-- Python.  Booleans are integers. -/
def python (F : Floats) : Lang where
  truthy := Python.truthy
  int := Python.int
  double := Python.double F
  single := F.single
  bytes v := match v with
    | .bytes bs => some bs
    | _ => none
  items := Python.items
  member name _ v i := v = .member name i

/-- Ruby.  A float is not an integer. -/
def ruby (F : Floats) : Lang where
  truthy := Ruby.truthy
  int v := match v with
    | .int z => some z
    | _ => none
  double := Ruby.double F
  single := F.single
  bytes v := match v with
    | .bytes bs => some bs
    | .str s => some (utf8 s)
    | _ => none
  items := Ruby.items
  member _ ds v i := ∃ z, v = .int z ∧ ds[i]? = some z

mutual
/-- `Means L Γ t v w`: where the type `t` is expected, the value `v` stands for the value `w` of Rust. -/
def Means (L : Lang) (Γ : Env) : Ty → Dyn → Val → Prop
  | .int t, v, .int z => L.int v = some z ∧ t.InRange z
  | .f64, v, .float b => L.double v = some b
  | .f32, v, .float c => ∃ b, L.double v = some b ∧ L.single b = some c
  | .bool, v, .bool b => b = L.truthy v
  | .string, v, .str s => v = .str s
  | .option _, v, .none => v = .nil
  | .option t, v, .some w => v ≠ .nil ∧ Means L Γ t v w
  | .seq t, v, .seq ws =>
      if t = .int .u8 then ∃ bs, L.bytes v = some bs ∧ ws = bs.map fun b => .int b.toNat
      else ∃ vs, L.items v = some vs ∧ MeansAll L Γ t vs ws
  | .set t, v, .set ws => ∃ vs, L.items v = some vs ∧ MeansAll L Γ t vs ws
  | .map k u, v, .map ws => ∃ es, v = .dict es ∧ MeansPairs L Γ k u es ws
  | .box t, v, .box w => Means L Γ t v w
  | .named n, v, .record ws => ∃ fs, Γ n = some (.record fs) ∧ MeansFields L Γ fs v ws
  | .named n, v, .variant i ws =>
      (∃ ds, Γ n = some (.flat ds) ∧ i < ds.length ∧ L.member n ds v i ∧ ws = []) ∨
      (∃ vs x fs, Γ n = some (.enum vs) ∧ vs[i]? = some (x, fs) ∧ v.isVariant x = some true ∧
        MeansFields L Γ fs v ws)
  | _, _, _ => False
/-- One by one. -/
def MeansAll (L : Lang) (Γ : Env) : Ty → List Dyn → List Val → Prop
  | _, [], [] => True
  | t, v :: vs, w :: ws => Means L Γ t v w ∧ MeansAll L Γ t vs ws
  | _, _, _ => False
def MeansPairs (L : Lang) (Γ : Env) : Ty → Ty → List (Dyn × Dyn) → List (Val × Val) → Prop
  | _, _, [], [] => True
  | k, u, e :: es, (a, b) :: ws => Means L Γ k e.1 a ∧ Means L Γ u e.2 b ∧ MeansPairs L Γ k u es ws
  | _, _, _, _ => False
/-- The attributes that the fields are called after. -/
def MeansFields (L : Lang) (Γ : Env) : List (String × Ty) → Dyn → List Val → Prop
  | [], _, [] => True
  | p :: fs, v, w :: ws => (∃ u, v.attr p.1 = some u ∧ Means L Γ p.2 u w) ∧ MeansFields L Γ fs v ws
  | _, _, _ => False
end

/-- How a value of Rust is passed to a native function: numbers as they are, strings as their bytes, and
everything else in a buffer in the wire format. -/
inductive Carries (Γ : Env) : Ty → Val → Lowered → Prop
  | int {t z} : Carries Γ (.int t) (.int z) (.int z)
  | f32 {b} : Carries Γ .f32 (.float b) (.float b)
  | f64 {b} : Carries Γ .f64 (.float b) (.float b)
  | bool {b} : Carries Γ .bool (.bool b) (.int (if b then 1 else 0))
  | string {s} : Carries Γ .string (.str s) (.buffer (utf8 s))
  | box {t w l} : Carries Γ t w l → Carries Γ (.box t) (.box w) l
  | option {t w bs} : Wire.write Γ.wire (.option t) w = some bs → Carries Γ (.option t) w (.buffer bs)
  | seq {t w bs} : Wire.write Γ.wire (.seq t) w = some bs → Carries Γ (.seq t) w (.buffer bs)
  | set {t w bs} : Wire.write Γ.wire (.set t) w = some bs → Carries Γ (.set t) w (.buffer bs)
  | map {k u w bs} : Wire.write Γ.wire (.map k u) w = some bs → Carries Γ (.map k u) w (.buffer bs)
  | named {n w bs} : Wire.write Γ.wire (.named n) w = some bs → Carries Γ (.named n) w (.buffer bs)

/-- `P` holds at every place of a value, down to depth `n`. -/
def Everywhere (P : Ty → Dyn → Prop) (items : Dyn → Option (List Dyn)) (Γ : Env) : Nat → Ty → Dyn → Prop
  | 0, _, _ => True
  | n + 1, ty, v => P ty v ∧ match ty with
    | .option t => v ≠ .nil → Everywhere P items Γ n t v
    | .seq t => t ≠ .int .u8 → ∀ vs, items v = some vs → ∀ u ∈ vs, Everywhere P items Γ n t u
    | .set t => ∀ vs, items v = some vs → ∀ u ∈ vs, Everywhere P items Γ n t u
    | .map k t => ∀ es, v = .dict es → ∀ e ∈ es, Everywhere P items Γ n k e.1 ∧ Everywhere P items Γ n t e.2
    | .box t => Everywhere P items Γ n t v
    | .named name => match Γ name with
      | some (.record fs) => ∀ p ∈ fs, ∀ u, v.attr p.1 = some u → Everywhere P items Γ n p.2 u
      | some (.enum vs) => ∀ x ∈ vs, ∀ p ∈ x.2, ∀ u, v.attr p.1 = some u → Everywhere P items Γ n p.2 u
      | _ => True
    | _ => True

/-- `P` holds at every place of a value. -/
def Fine (P : Ty → Dyn → Prop) (items : Dyn → Option (List Dyn)) (Γ : Env) (t : Ty) (v : Dyn) : Prop :=
  ∀ n, Everywhere P items Γ n t v

/-- In Python a number at the place of a truth value is 0 or 1. -/
def PythonFine (ty : Ty) (v : Dyn) : Prop := ty = .bool → ∀ z, v = .int z → z = 0 ∨ z = 1

/-- In Python truth values are booleans, and values of enums with fields are of the class of that enum. -/
def PythonTidy (Γ : Env) (ty : Ty) (v : Dyn) : Prop :=
  (ty = .bool → ∃ b, v = .bool b) ∧
  ∀ n, ty = .named n → ∀ vs, Γ n = some (.enum vs) → ∃ i fs, v = .variant (vs.map Prod.fst) i fs

/-- In Ruby there are no floats at places of integers, optional values are not `false`, values of enums without
fields are discriminants of theirs, those of other enums are one of the variants, nothing is longer than 2^31 - 1, and keys and elements of sets are integers,
strings or values that are passed as they are. -/
def RubyFine (Γ : Env) (ty : Ty) (v : Dyn) : Prop := match ty with
  | .int _ => ∀ b, v ≠ .float b
  | .option _ => v ≠ .bool false
  | .string => ∀ s, v = .str s → (utf8 s).length < 2 ^ 31
  | .seq _ => (∀ bs, v = .bytes bs → bs.length < 2 ^ 31) ∧ (∀ s, v = .str s → (utf8 s).length < 2 ^ 31) ∧
      ∀ vs, Ruby.items v = some vs → vs.length < 2 ^ 31
  | .set t => (∀ vs, Ruby.items v = some vs → vs.length < 2 ^ 31) ∧
      ((∃ i, t = .int i) ∨ t = .string ∨ Ruby.trivial t = true)
  | .map k _ => (∀ es, v = .dict es → es.length < 2 ^ 31) ∧
      ((∃ i, k = .int i) ∨ k = .string ∨ Ruby.trivial k = true)
  | .named n => (∀ ds, Γ n = some (.flat ds) → ∃ z ∈ ds, v = .int z) ∧
      ∀ vs, Γ n = some (.enum vs) → ∃ x ∈ vs, v.isVariant x.1 = some true
  | _ => True

/-- The same for Ruby, where anything is a truth value. -/
def RubyTidy (Γ : Env) (ty : Ty) (v : Dyn) : Prop := RubyFine Γ ty v ∧
  ∀ n, ty = .named n → ∀ vs, Γ n = some (.enum vs) → ∃ i fs, v = .variant (vs.map Prod.fst) i fs

/-- Enums have at least one variant and fewer than 2^31, with names and discriminants of their own. -/
def Env.Good (Γ : Env) : Prop := ∀ n, match Γ n with
  | some (.flat ds) => ds.Nodup ∧ ds ≠ [] ∧ ds.length < 2 ^ 31
  | some (.enum vs) => (vs.map Prod.fst).Nodup ∧ vs ≠ [] ∧ vs.length < 2 ^ 31
  | _ => True

/-- Numbers, truth values and strings. -/
def leaf : Ty → Bool
  | .int _ | .f32 | .f64 | .bool | .string => true
  | _ => false

/-- A number, truth value or string in one or more boxes. -/
def boxedLeaf : Ty → Bool
  | .box t => leaf t || boxedLeaf t
  | _ => false

end Verif.Dyn
