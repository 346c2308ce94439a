import Verif.Wire.Rust

/-!
# Values of Python and Ruby as arguments

A caller in Python or Ruby can pass anything.  The bindings check it, convert it, and write it for Rust.
Timestamps, durations, handles and custom types with conversions are left out here.
-/

namespace Verif.Dyn

open Verif Verif.Wire

/-- A value of a dynamic language.  A string of Python may have no UTF-8 encoding
(`badStr`); a string of Ruby is `str` if it is text in UTF-8 and `bytes` otherwise.  `obj` is an object with
attributes.  `member` is a member of one of Python's enums; Ruby uses integers for them.  `variant` is an object
of a class for a variant with fields: `names` are the variants of its enum, and it is number `i`. -/
inductive Dyn where
  | nil
  | bool (b : Bool)
  | int (z : Int)
  | float (bits : Nat)
  | str (s : String)
  | badStr
  | bytes (bs : Bytes)
  | list (vs : List Dyn)
  | set (vs : List Dyn)
  | dict (es : List (Dyn × Dyn))
  | obj (fields : List (String × Dyn))
  | member (enum : String) (i : Nat)
  | variant (names : List String) (i : Nat) (fields : List (String × Dyn))

/-- Types with a definition: records, enums none of whose variants has fields, with their discriminants, and
other enums. -/
inductive Def where
  | record (fields : List (String × Ty))
  | flat (discrs : List Int)
  | enum (variants : List (String × List (String × Ty)))

abbrev Env := String → Option Def

/-- The same definition for the wire format. -/
def Def.wire : Def → Wire.Def
  | .record fs => .record (fs.map Prod.snd)
  | .flat ds => .enum (ds.map fun _ => [])
  | .enum vs => .enum (vs.map fun v => v.2.map Prod.snd)

def Env.wire (Γ : Env) : Wire.Env := fun n => (Γ n).map Def.wire

/-- The attributes of a value. -/
def Dyn.attrs : Dyn → List (String × Dyn)
  | .obj fs => fs
  | .variant _ _ fs => fs
  | _ => []

def Dyn.attr (v : Dyn) (name : String) : Option Dyn := v.attrs.lookup name

/-- `value.is_X()` and `v.x?`: `none` if there is no such method. -/
def Dyn.isVariant (v : Dyn) (x : String) : Option Bool := match v with
  | .variant names i _ => if x ∈ names then some (names[i]? = some x) else none
  | _ => none

/-- How the languages make floats: `ofInt` the nearest double to an integer, `single` the nearest single to a
double; `none` if it is out of range. -/
structure Floats where
  ofInt : Int → Option Nat
  single : Nat → Option Nat

/-- What is passed to the native function. -/
inductive Lowered where
  | int (z : Int)
  | float (bits : Nat)
  | buffer (bs : Bytes)
  deriving DecidableEq

/-- The loops of the writers: one piece after the other. -/
def concat {α : Type} (f : α → Option Bytes) : List α → Option Bytes
  | [] => some []
  | a :: as => (f a).bind fun b => (concat f as).map (b ++ ·)

/-! ## Python -/

namespace Python

/-- `bool(value)`. -/
def truthy : Dyn → Bool
  | .nil => false
  | .bool b => b
  | .int z => z ≠ 0
  | .float bits => bits % 2 ^ 63 ≠ 0
  | .str s => s ≠ ""
  | .bytes bs => !bs.isEmpty
  | .list vs => !vs.isEmpty
  | .set vs => !vs.isEmpty
  | .dict es => !es.isEmpty
  | _ => true

/-- `value.__index__()`: booleans are integers. -/
def int : Dyn → Option Int
  | .int z => some z
  | .bool b => some (if b then 1 else 0)
  | _ => none

/-- `value.__float__()`. -/
def double (F : Floats) (v : Dyn) : Option Nat := match v with
  | .float b => some b
  | v => (int v).bind F.ofInt

/-- `for item in value`. -/
def items : Dyn → Option (List Dyn)
  | .list vs => some vs
  | .set vs => some vs
  | .dict es => some (es.map Prod.fst)
  | .str s => some (s.toList.map fun c => .str (String.ofList [c]))
  | .bytes bs => some (bs.map fun b => .int b.toNat)
  | _ => none

/-- The chain of `if value.is_X()` in python/templates/EnumTemplate.py:174-194. -/
def checkVariants (f : Ty → Dyn → Bool) (v : Dyn) : List (String × List (String × Ty)) → Bool
  | [] => false
  | (x, fs) :: vs => match v.isVariant x with
    | none => false
    | some true => fs.all fun p => match v.attr p.1 with | some u => f p.2 u | none => false
    | some false => checkVariants f v vs

/-- The generated `check_lower`; `false` if it raises an exception.  RustBufferHelper.py:11-33,
builtins/Boolean.py:2-4, String.py:2-6, Bytes.py:9-14, OptionalTemplate.py:2-5, SequenceTemplate.py:2-5,
SetTemplate.py:2-5, MapTemplate.py:2-6, BoxTemplate.py:2-4, RecordTemplate.py:66-74, EnumTemplate.py:173-194. -/
def check (F : Floats) (Γ : Env) : Nat → Ty → Dyn → Bool
  | 0, _, _ => false
  | n + 1, ty, v => match ty with
    | .int t => match int v with
      | some z => decide (t.InRange z)
      | none => false
    | .f32 | .f64 => (double F v).isSome
    | .bool => true
    | .string => match v with
      | .str _ | .badStr => true
      | _ => false
    | .option t => match v with
      | .nil => true
      | v => check F Γ n t v
    | .seq t =>
      if t = .int .u8 then match v with
        | .bytes _ => true
        | _ => false
      else match items v with
        | some vs => vs.all (check F Γ n t)
        | none => false
    | .set t => match items v with
      | some vs => vs.all (check F Γ n t)
      | none => false
    | .map k u => match v with
      | .dict es => es.all fun e => check F Γ n k e.1 && check F Γ n u e.2
      | _ => false
    | .box t => check F Γ n t v
    | .named name => match Γ name with
      | some (.record fs) => fs.all fun p => match v.attr p.1 with | some u => check F Γ n p.2 u | none => false
      | some (.flat ds) => ds.isEmpty || match v with
        | .member e i => e = name && i < ds.length
        | _ => false
      | some (.enum vs) => vs.isEmpty || checkVariants (check F Γ n) v vs
      | none => false
    | _ => false

/-- The `if`s of EnumTemplate.py:196-213: every test is made, also after one has succeeded. -/
def writeVariants (f : Ty → Dyn → Option Bytes) (v : Dyn) : Nat → List (String × List (String × Ty)) → Option Bytes
  | _, [] => some []
  | k, (x, fs) :: vs => (v.isVariant x).bind fun is =>
      (if is then (writeLen k).bind fun tag =>
          (concat (fun p => (v.attr p.1).bind (f p.2)) fs).map (tag ++ ·)
        else some []).bind fun b => (writeVariants f v (k + 1) vs).map (b ++ ·)

/-- The generated `write`, and `struct.pack`, which raises an exception if a number is out of range.
builtins/*.py, OptionalTemplate.py:7-14, SequenceTemplate.py:7-12, SetTemplate.py:7-11, MapTemplate.py:8-13,
BoxTemplate.py:6-8, RecordTemplate.py:76-84, EnumTemplate.py:196-213. -/
def write (F : Floats) (Γ : Env) : Nat → Ty → Dyn → Option Bytes
  | 0, _, _ => none
  | n + 1, ty, v => match ty with
    | .int t => (int v).bind fun z => if t.InRange z then some (writeInt t z) else none
    | .f32 => (double F v).bind fun b => (F.single b).map (beBytes 4)
    | .f64 => (double F v).map (beBytes 8)
    | .bool => (int v).bind fun z => if IntTy.u8.InRange z then some (writeInt .u8 z) else none
    | .string => match v with
      | .str s => writeStr s
      | _ => none
    | .option t => match v with
      | .nil => some (beBytes 1 0)
      | v => (write F Γ n t v).map (beBytes 1 1 ++ ·)
    | .seq t =>
      if t = .int .u8 then match v with
        | .bytes bs => (writeLen bs.length).map (· ++ bs)
        | _ => none
      else (items v).bind fun vs => (writeLen vs.length).bind fun c => (concat (write F Γ n t) vs).map (c ++ ·)
    | .set t => (items v).bind fun vs => (writeLen vs.length).bind fun c => (concat (write F Γ n t) vs).map (c ++ ·)
    | .map k u => match v with
      | .dict es => (writeLen es.length).bind fun c =>
          (concat (fun e => (write F Γ n k e.1).bind fun a => (write F Γ n u e.2).map (a ++ ·)) es).map (c ++ ·)
      | _ => none
    | .box t => write F Γ n t v
    | .named name => match Γ name with
      | some (.record fs) => concat (fun p => (v.attr p.1).bind (write F Γ n p.2)) fs
      | some (.flat ds) => match v with
        | .member e i => if e = name ∧ i < ds.length then writeLen (i + 1) else some []
        | _ => some []
      | some (.enum vs) => writeVariants (write F Γ n) v 1 vs
      | none => none
    | _ => none

/-- The generated `lower`: RustBufferHelper.py:2-9 and 44-49, builtins/Boolean.py:6-8, String.py:27-31.  The
caller of a native function passes a number as it is (`pass`). -/
def lower (F : Floats) (Γ : Env) (n : Nat) (ty : Ty) (v : Dyn) (pass : IntTy → Int → Int) : Option Lowered :=
  match ty with
  | .int t => (int v).map fun z => .int (pass t z)
  | .f32 => (double F v).bind fun b => (F.single b).map .float
  | .f64 => (double F v).map .float
  | .bool => some (.int (if truthy v then 1 else 0))
  | .string => match v with
    | .str s => some (.buffer (utf8 s))
    | _ => none
  | ty => (write F Γ n ty v).map .buffer

/-- ctypes does not check the range of numbers: it keeps the bits that fit. -/
def truncate (t : IntTy) (z : Int) : Int :=
  let m := z % (2 ^ (8 * t.width) : Int)
  if t.signed ∧ (2 ^ (8 * t.width - 1) : Int) ≤ m then m - (2 ^ (8 * t.width) : Int) else m

/-- An argument of a function: CallableBody.py:1-26. -/
def arg (F : Floats) (Γ : Env) (n : Nat) (ty : Ty) (v : Dyn) : Option Lowered :=
  if check F Γ n ty v then lower F Γ n ty v truncate else none

/-- What a method that is implemented in Python returns: CallbackInterfaceImpl.py:29-34, 60-70. -/
def result (F : Floats) (Γ : Env) (n : Nat) (ty : Ty) (v : Dyn) : Option Lowered := lower F Γ n ty v truncate

end Python

/-! ## Ruby -/

namespace Ruby

/-- Everything but `nil` and `false` is true. -/
def truthy : Dyn → Bool
  | .nil => false
  | .bool b => b
  | _ => true

/-- The integer part of a double; `none` for infinities and NaN. -/
def floor0 (bits : Nat) : Option Int :=
  let exp := bits / 2 ^ 52 % 2 ^ 11
  let mant := bits % 2 ^ 52 + 2 ^ 52
  if exp = 2047 then none
  else
    let abs : Nat := if exp < 1023 then 0 else if exp < 1075 then mant / 2 ^ (1075 - exp) else mant * 2 ^ (exp - 1075)
    some (if bits / 2 ^ 63 % 2 = 1 then -(abs : Int) else abs)

/-- `to_int`: floats have it too. -/
def toInt : Dyn → Option Int
  | .int z => some z
  | .float bits => floor0 bits
  | _ => none

/-- `uniffi_in_range`: Helpers.rb:1-6. -/
def inRange (t : IntTy) (v : Dyn) : Option Int := (toInt v).bind fun z => if t.InRange z then some z else none

/-- Numbers as floats. -/
def double (F : Floats) : Dyn → Option Nat
  | .float b => some b
  | .int z => F.ofInt z
  | _ => none

/-- `each`: a hash gives pairs. -/
def items : Dyn → Option (List Dyn)
  | .list vs => some vs
  | .set vs => some vs
  | .dict es => some (es.map fun e => .list [e.1, e.2])
  | _ => none

/-- Whether the code for a coercion is the name of the variable: gen_ruby/mod.rs:434-456. -/
def trivial : Ty → Bool
  | .f32 | .f64 | .handle | .timestamp | .duration | .named _ => true
  | .seq t => if t = .int .u8 then false else trivial t
  | .set t => trivial t
  | .map k v => trivial k && trivial v
  | .box t => trivial t
  | _ => false

def mapAll (f : Dyn → Option Dyn) : List Dyn → Option (List Dyn)
  | [] => some []
  | v :: vs => (f v).bind fun a => (mapAll f vs).map (a :: ·)

def mapPairs (f g : Dyn → Option Dyn) : List (Dyn × Dyn) → Option (List (Dyn × Dyn))
  | [] => some []
  | (k, v) :: es => (f k).bind fun a => (g v).bind fun b => (mapPairs f g es).map ((a, b) :: ·)

/-- `coerce_rb`: gen_ruby/mod.rs:399-476; `none` is an exception.  Keys of hashes and elements of sets that
become equal are not merged here. -/
def coerce : Ty → Dyn → Option Dyn
  | .int t, v => (inRange t v).map .int
  | .bool, v => some (.bool (truthy v))
  | .string, v => match v with
    | .str s => some (.str s)
    | _ => none
  | .option t, v => if truthy v then coerce t v else some .nil
  | .seq t, v =>
    if t = .int .u8 then match v with
      | .bytes bs => some (.bytes bs)
      | .str s => some (.str s)
      | _ => none
    else if trivial t then some v
    else (items v).bind fun vs => (mapAll (coerce t) vs).map .list
  | .set t, v =>
    if trivial t then some v
    else (items v).bind fun vs => (mapAll (coerce t) vs).map .set
  | .map k u, v =>
    if trivial k && trivial u then some v
    else match v with
      | .dict es => (mapPairs (coerce k) (coerce u) es).map .dict
      | _ => none
  | .box t, v => coerce t v
  | _, v => some v

/-- `pack_into 4, 'l>'` keeps the bits that fit. -/
def count (n : Nat) : Bytes := beBytes 4 n

/-- The `if`s of RustBufferBuilder.rb:181-190. -/
def writeVariants (f : Ty → Dyn → Option Bytes) (v : Dyn) : Nat → List (String × List (String × Ty)) → Option Bytes
  | _, [] => some []
  | k, (x, fs) :: vs => (v.isVariant x).bind fun is =>
      (if is then (concat (fun p => (v.attr p.1).bind (f p.2)) fs).map (count k ++ ·)
        else some []).bind fun b => (writeVariants f v (k + 1) vs).map (b ++ ·)

/-- The `if`s of RustBufferBuilder.rb:176-180. -/
def writeFlat (v : Dyn) : Nat → List Int → Bytes
  | _, [] => []
  | k, d :: ds => (match v with | .int z => if z = d then count k else [] | _ => []) ++ writeFlat v (k + 1) ds

/-- The generated `write`: RustBufferBuilder.rb:32-118, 167-277. -/
def write (F : Floats) (Γ : Env) : Nat → Ty → Dyn → Option Bytes
  | 0, _, _ => none
  | n + 1, ty, v => match ty with
    | .int t => (inRange t v).map (writeInt t)
    | .f32 => (double F v).bind fun b => (F.single b).map (beBytes 4)
    | .f64 => (double F v).map (beBytes 8)
    | .bool => some (writeBool (truthy v))
    | .string => match v with
      | .str s => some (count (utf8 s).length ++ utf8 s)
      | _ => none
    | .option t => match v with
      | .nil => some (beBytes 1 0)
      | v => (write F Γ n t v).map (beBytes 1 1 ++ ·)
    | .seq t =>
      if t = .int .u8 then match v with
        | .bytes bs => some (count bs.length ++ bs)
        | .str s => some (count (utf8 s).length ++ utf8 s)
        | _ => none
      else (items v).bind fun vs => (concat (write F Γ n t) vs).map (count vs.length ++ ·)
    | .set t => (items v).bind fun vs => (concat (write F Γ n t) vs).map (count vs.length ++ ·)
    | .map k u => match v with
      | .dict es =>
          (concat (fun e => (write F Γ n k e.1).bind fun a => (write F Γ n u e.2).map (a ++ ·)) es).map
            (count es.length ++ ·)
      | _ => none
    | .box t => write F Γ n t v
    | .named name => match Γ name with
      | some (.record fs) => concat (fun p => (v.attr p.1).bind (write F Γ n p.2)) fs
      | some (.flat ds) => some (writeFlat v 1 ds)
      | some (.enum vs) => writeVariants (write F Γ n) v 1 vs
      | none => none
    | _ => none

/-- `lower_rb`: gen_ruby/mod.rs:514-588. -/
def lower (F : Floats) (Γ : Env) (n : Nat) (v : Dyn) : Ty → Option Lowered
  | .int _ => match v with
    | .int z => some (.int z)
    | _ => none
  | .f32 => (double F v).bind fun b => (F.single b).map .float
  | .f64 => (double F v).map .float
  | .bool => some (.int (if truthy v then 1 else 0))
  | .string => match v with
    | .str s => some (.buffer (utf8 s))
    | _ => none
  | .box t => lower F Γ n v t
  | ty => (write F Γ n ty v).map .buffer

/-- An argument of a function: macros.rb:149-154 and 60-65.  The checks of objects (`check_lower`) only raise
exceptions and are left out. -/
def arg (F : Floats) (Γ : Env) (n : Nat) (ty : Ty) (v : Dyn) : Option Lowered :=
  (coerce ty v).bind fun v' => lower F Γ n v' ty

end Ruby

end Verif.Dyn
