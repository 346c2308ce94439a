import Verif.Dyn.AcceptRuby

/-!
# C85: values of Python and Ruby as arguments

A value that is passed to a function in Python or Ruby is refused with an exception, or reaches Rust as the value
it means there.
-/

namespace Verif.Props.Dynamic

open Verif Verif.Wire Verif.Dyn

/-! ## An interface for the examples -/

/-- A record with a number, a list of optional strings, and two enums. -/
def Γ₀ : Dyn.Env := fun n =>
  if n = "R" then some (.record [("a", .int .i8), ("b", .seq (.option .string)), ("c", .named "E"), ("d", .named "V")])
  else if n = "E" then some (.flat [10, 20, 30, 40])
  else if n = "V" then some (.enum [("x", []), ("y", [("z", .bool)])])
  else if n = "S" then some (.record [("e", .named "E"), ("s", .string)])
  else if n = "O" then some (.record [("o", .option .bool)])
  else none

def F₀ : Floats := { ofInt := fun z => some z.toNat, single := fun b => some b }

theorem good₀ : Γ₀.Good := by
  intro n
  unfold Γ₀
  by_cases h1 : n = "R"
  · simp [h1]
  by_cases h2 : n = "E"
  · subst h2; simp
  by_cases h3 : n = "V"
  · subst h3; simp
  by_cases h4 : n = "S"
  · subst h4; simp
  by_cases h5 : n = "O"
  · subst h5; simp
  simp [h1, h2, h3, h4, h5]

/-! ## Python -/

/-- **Python**: what is passed is the value that the argument means.  Missing are boxes of numbers, truth values
and strings, and numbers other than 0 and 1 as truth values in other values. -/
theorem C85_python_arg_partial (F : Floats) (Γ : Dyn.Env) (hΓ : Γ.Good) (n : Nat) (ty : Ty) (v : Dyn) (l : Lowered)
    (hb : boxedLeaf ty = false) (hf : Fine PythonFine Python.items Γ ty v)
    (h : Python.arg F Γ n ty v = some l) : ∃ w, Means (python F) Γ ty v w ∧ Carries Γ ty w l :=
  Python.arg_means hΓ hb hf h

/-- **Python refuses nothing that has a meaning.** -/
theorem C85_python_accept (F : Floats) (Γ : Dyn.Env) (hΓ : Γ.Good) (ty : Ty) (v : Dyn) (w : Val) (l : Lowered)
    (hb : boxedLeaf ty = false) (hm : Means (python F) Γ ty v w) (hc : Carries Γ ty w l)
    (hf : Fine (PythonTidy Γ) Python.items Γ ty v) : ∃ N, ∀ n, N ≤ n → Python.arg F Γ n ty v = some l :=
  Python.arg_accept hΓ hb hm hc hf

/-- A record of Python. -/
def pyR : Dyn := .obj [("a", .int (-3)), ("b", .list [.nil, .str "hi"]), ("c", .member "E" 2),
  ("d", .variant ["x", "y"] 1 [("z", .bool true)])]

theorem Γ₀_R : Γ₀ "R" = some (.record [("a", .int .i8), ("b", .seq (.option .string)), ("c", .named "E"),
    ("d", .named "V")]) := rfl
theorem Γ₀_E : Γ₀ "E" = some (.flat [10, 20, 30, 40]) := rfl
theorem Γ₀_V : Γ₀ "V" = some (.enum [("x", []), ("y", [("z", .bool)])]) := rfl

/-- What holds at the places of the record holds everywhere in it. -/
theorem fine_R {P : Ty → Dyn → Prop} {items : Dyn → Option (List Dyn)} {c z : Dyn}
    (hi : ∀ vs, items (.list vs) = some vs)
    (h : ∀ v, P (.named "R") v) (ha : P (.int .i8) (.int (-3))) (hb : P (.seq (.option .string)) (.list [.nil, .str "hi"]))
    (hn : P (.option .string) .nil) (hs : P (.option .string) (.str "hi")) (hs' : P .string (.str "hi"))
    (hc : P (.named "E") c) (hd : P (.named "V") (.variant ["x", "y"] 1 [("z", z)])) (hz : P .bool z) :
    Fine P items Γ₀ (.named "R") (.obj [("a", .int (-3)), ("b", .list [.nil, .str "hi"]), ("c", c),
      ("d", .variant ["x", "y"] 1 [("z", z)])]) := by
  refine .mk_record (h _) Γ₀_R ?_
  intro p hp u hu
  simp only [List.mem_cons, List.not_mem_nil, or_false] at hp
  rcases hp with rfl | rfl | rfl | rfl <;> simp [Dyn.attr, Dyn.attrs, List.lookup] at hu <;> subst hu
  · exact .mk_leaf rfl ha
  · refine .mk_seq hb (hi _) ?_
    intro u hu
    simp only [List.mem_cons, List.not_mem_nil, or_false] at hu
    rcases hu with rfl | rfl
    · exact .mk_option hn (fun h => absurd rfl h)
    · exact .mk_option hs (fun _ => .mk_leaf rfl hs')
  · exact .mk_flat hc Γ₀_E
  · refine .mk_enum hd Γ₀_V ?_
    intro x hx p hp u hu
    simp only [List.mem_cons, List.not_mem_nil, or_false] at hx
    rcases hx with rfl | rfl <;> simp at hp
    subst hp
    simp [Dyn.attr, Dyn.attrs, List.lookup] at hu
    subst hu
    exact .mk_leaf rfl hz

example : Fine PythonFine Python.items Γ₀ (.named "R") pyR := by
  refine fine_R (fun _ => rfl) ?_ ?_ ?_ ?_ ?_ ?_ ?_ ?_ ?_ <;> simp [PythonFine]

example : (Python.arg F₀ Γ₀ 6 (.named "R") pyR).isSome = true := by decide +kernel

/-- What it means. -/
def rR : Val := .record [.int (-3), .seq [.none, .some (.str "hi")], .variant 2 [], .variant 1 [.bool true]]

example : Means (python F₀) Γ₀ (.named "R") pyR rR := by
  refine ⟨_, Γ₀_R, ⟨_, rfl, rfl, by decide⟩, ⟨_, rfl, ?_⟩, ⟨_, rfl, Or.inl ⟨_, Γ₀_E, by decide, rfl, rfl⟩⟩,
    ⟨_, rfl, Or.inr ⟨_, _, _, Γ₀_V, rfl, rfl, ⟨_, rfl, rfl⟩, trivial⟩⟩, trivial⟩
  simp [python, Python.items, MeansAll, Means]

example : Fine (PythonTidy Γ₀) Python.items Γ₀ (.named "R") pyR := by
  refine fine_R (fun _ => rfl) ?_ ?_ ?_ ?_ ?_ ?_ ?_ ?_ ?_ <;> simp [PythonTidy, Γ₀]

/-- **Python refuses what has no meaning**, such as a number out of range. -/
theorem C85_python_refuse (F : Floats) (Γ : Dyn.Env) (hΓ : Γ.Good) (n : Nat) (ty : Ty) (v : Dyn)
    (hb : boxedLeaf ty = false) (hf : Fine PythonFine Python.items Γ ty v)
    (hm : ∀ w, ¬ Means (python F) Γ ty v w) : Python.arg F Γ n ty v = none := by
  cases h : Python.arg F Γ n ty v with
  | none => rfl
  | some l =>
    obtain ⟨w, hw, _⟩ := C85_python_arg_partial F Γ hΓ n ty v l hb hf h
    exact absurd hw (hm w)

example : ∀ w, ¬ Means (python F₀) Γ₀ (.int .i8) (.int 128) w := by
  intro w
  cases w <;> simp [Means, python, Python.int, IntTy.InRange, IntTy.signed, IntTy.width]
  omega

/-- **An optional value arrives as `None` exactly if it is `None`.** -/
theorem C85_python_none (F : Floats) (Γ : Dyn.Env) (hΓ : Γ.Good) (n : Nat) (t : Ty) (v : Dyn) (bs : Bytes)
    (hf : Fine PythonFine Python.items Γ (.option t) v)
    (h : Python.arg F Γ n (.option t) v = some (.buffer bs)) : bs = [0] ↔ v = .nil := by
  obtain ⟨w, hm, hc⟩ := C85_python_arg_partial F Γ hΓ n _ v _ rfl hf h
  cases hc with
  | option hw =>
    cases w <;> simp only [Means] at hm
    · subst hm
      simp [Wire.write, beBytes] at hw
      simp [← hw]
    · simp only [Wire.write, Option.map_eq_some_iff] at hw
      obtain ⟨b, _, rfl⟩ := hw
      simp [hm.1, beBytes]

/-- **Not so for what methods implemented in Python return**: 300 for an `i8` arrives as 44, and a string for an
enum without fields as nothing at all. -/
theorem C85_python_result_broken :
    (∀ w, ¬ Means (python F₀) Γ₀ (.int .i8) (.int 300) w) ∧
    Python.result F₀ Γ₀ 5 (.int .i8) (.int 300) = some (.int 44) ∧
    (∀ w, ¬ Means (python F₀) Γ₀ (.named "E") (.str "A") w) ∧
    Python.result F₀ Γ₀ 5 (.named "E") (.str "A") = some (.buffer []) := by
  refine ⟨?_, by decide +kernel, ?_, by decide +kernel⟩
  · intro w
    cases w <;> simp [Means, python, Python.int, IntTy.InRange, IntTy.signed, IntTy.width]
    omega
  · intro w
    cases w <;> simp [Means, python, Γ₀]

/-- What a method returns is right if its value would have been accepted as an argument. -/
theorem C85_python_result_partial (F : Floats) (Γ : Dyn.Env) (hΓ : Γ.Good) (n : Nat) (ty : Ty) (v : Dyn) (l m : Lowered)
    (hb : boxedLeaf ty = false) (hf : Fine PythonFine Python.items Γ ty v) (h : Python.result F Γ n ty v = some l)
    (ha : Python.arg F Γ n ty v = some m) : ∃ w, Means (python F) Γ ty v w ∧ Carries Γ ty w l := by
  refine C85_python_arg_partial F Γ hΓ n ty v l hb hf ?_
  simp only [Python.arg] at ha ⊢
  split at ha
  · rename_i hc
    simpa [hc, Python.result] using h
  · simp at ha

/-- **Not so for numbers as truth values**: 2 is true as an argument; in a list it is a byte that Rust refuses. -/
theorem C85_python_bool_broken :
    Python.arg F₀ Γ₀ 5 .bool (.int 2) = some (.int 1) ∧
    Python.arg F₀ Γ₀ 5 (.seq .bool) (.list [.int 2]) = some (.buffer [0, 0, 0, 1, 2]) ∧
    liftBuffer Γ₀.wire 5 (.seq .bool) [0, 0, 0, 1, 2] = .err .badBool :=
  ⟨by decide +kernel, by decide +kernel, by decide +kernel⟩

/-- **Not so for boxes**: a boxed string is passed with its length in front, and Rust takes that for text; a boxed
number is passed as a buffer. -/
theorem C85_python_box_broken :
    Means (python F₀) Γ₀ (.box .string) (.str "hi") (.box (.str "hi")) ∧
    Python.arg F₀ Γ₀ 5 (.box .string) (.str "hi") = some (.buffer [0, 0, 0, 2, 104, 105]) ∧
    ¬ Carries Γ₀ (.box .string) (.box (.str "hi")) (.buffer [0, 0, 0, 2, 104, 105]) ∧
    Carries Γ₀ (.box .string) (.box (.str "\x00\x00\x00\x02hi")) (.buffer [0, 0, 0, 2, 104, 105]) ∧
    Python.arg F₀ Γ₀ 5 (.box (.int .i32)) (.int 7) = some (.buffer [0, 0, 0, 7]) := by
  refine ⟨by simp [Means], by decide +kernel, ?_, ?_, by decide +kernel⟩
  · intro h
    cases h with
    | box h =>
      generalize hl : Lowered.buffer [0, 0, 0, 2, 104, 105] = l at h
      cases h
      revert hl
      decide +kernel
  · have : Lowered.buffer [0, 0, 0, 2, 104, 105] = .buffer (utf8 "\x00\x00\x00\x02hi") := by decide +kernel
    rw [this]
    exact .box .string

/-! ## Ruby -/

/-- **Ruby**: what is passed is the value that the argument means.  Missing are floats for integers, `false` for
optional values, values that are none of an enum's variants, and keys that are not integers or strings. -/
theorem C85_ruby_arg_partial (F : Floats) (Γ : Dyn.Env) (hΓ : Γ.Good) (n : Nat) (ty : Ty) (v : Dyn) (l : Lowered)
    (hf : Fine (RubyFine Γ) Ruby.items Γ ty v)
    (h : Ruby.arg F Γ n ty v = some l) : ∃ w, Means (ruby F) Γ ty v w ∧ Carries Γ ty w l :=
  Ruby.arg_means hΓ hf h

/-- **Ruby refuses nothing that has a meaning.** -/
theorem C85_ruby_accept (F : Floats) (Γ : Dyn.Env) (hΓ : Γ.Good) (ty : Ty) (v : Dyn) (w : Val) (l : Lowered)
    (hm : Means (ruby F) Γ ty v w) (hc : Carries Γ ty w l)
    (hf : Fine (RubyTidy Γ) Ruby.items Γ ty v) : ∃ N, ∀ n, N ≤ n → Ruby.arg F Γ n ty v = some l :=
  Ruby.arg_accept hΓ hm hc hf

/-- The record in Ruby. -/
def rbR : Dyn := .obj [("a", .int (-3)), ("b", .list [.nil, .str "hi"]), ("c", .int 30),
  ("d", .variant ["x", "y"] 1 [("z", .str "true")])]

theorem hi_length : (utf8 "hi").length = 2 := by decide +kernel

theorem rbR_fine : Fine (RubyTidy Γ₀) Ruby.items Γ₀ (.named "R") rbR := by
  refine fine_R (fun _ => rfl) ?_ ?_ ?_ ?_ ?_ ?_ ?_ ?_ ?_ <;>
    simp [RubyTidy, RubyFine, Γ₀, Ruby.items, Dyn.isVariant, hi_length]

example : (Ruby.arg F₀ Γ₀ 6 (.named "R") rbR).isSome = true := by decide +kernel

example : Means (ruby F₀) Γ₀ (.named "R") rbR rR := by
  refine ⟨_, Γ₀_R, ⟨_, rfl, rfl, by decide⟩, ⟨_, rfl, ?_⟩, ⟨_, rfl, Or.inl ⟨_, Γ₀_E, by decide, ⟨_, rfl, rfl⟩, rfl⟩⟩,
    ⟨_, rfl, Or.inr ⟨_, _, _, Γ₀_V, rfl, rfl, ⟨_, rfl, rfl⟩, trivial⟩⟩, trivial⟩
  simp [ruby, Ruby.items, MeansAll, Means]

example : Ruby.arg F₀ Γ₀ 6 (.map .string (.seq (.option (.int .u16)))) (.dict [(.str "k", .list [.nil, .int 7])]) =
    some (.buffer [0, 0, 0, 1, 0, 0, 0, 1, 107, 0, 0, 0, 2, 0, 1, 0, 7]) := by decide +kernel

/-- **Not so for `false` as an optional truth value**: as an argument it arrives as `None`, in a record as
`Some(false)`, which is what it means. -/
theorem C85_ruby_option_bool_broken :
    Means (ruby F₀) Γ₀ (.option .bool) (.bool false) (.some (.bool false)) ∧
    Ruby.arg F₀ Γ₀ 5 (.option .bool) (.bool false) = some (.buffer [0]) ∧
    liftBuffer Γ₀.wire 5 (.option .bool) [0] = .ok .none [] ∧
    Ruby.arg F₀ Γ₀ 5 (.named "O") (.obj [("o", .bool false)]) = some (.buffer [1, 0]) :=
  ⟨by simp [Means, ruby, Ruby.truthy], by decide +kernel, by decide +kernel, by decide +kernel⟩

/-- **Not so for floats as integers**: 1.5 arrives as 1. -/
theorem C85_ruby_float_broken :
    (∀ w, ¬ Means (ruby F₀) Γ₀ (.int .i32) (.float 0x3FF8000000000000) w) ∧
    Ruby.arg F₀ Γ₀ 5 (.int .i32) (.float 0x3FF8000000000000) = some (.int 1) := by
  refine ⟨?_, by decide +kernel⟩
  intro w
  cases w <;> simp [Means, ruby]

/-- **Not so for enums without fields**: for a value that is none of them nothing is written, and Rust reads what
follows, here the string, as the variant. -/
theorem C85_ruby_enum_broken :
    (∀ w, ¬ Means (ruby F₀) Γ₀ (.named "S") (.obj [("e", .int 5), ("s", .str "\x00\x00\x00\x00")]) w) ∧
    Ruby.arg F₀ Γ₀ 5 (.named "S") (.obj [("e", .int 5), ("s", .str "\x00\x00\x00\x00")]) =
      some (.buffer [0, 0, 0, 4, 0, 0, 0, 0]) ∧
    liftBuffer Γ₀.wire 5 (.named "S") [0, 0, 0, 4, 0, 0, 0, 0] = .ok (.record [.variant 3 [], .str ""]) [] := by
  refine ⟨?_, by decide +kernel, by decide +kernel⟩
  intro w hm
  cases w <;> simp only [Means] at hm
  · obtain ⟨fs, hd, hm⟩ := hm
    have : fs = [("e", .named "E"), ("s", .string)] := by
      simp [Γ₀] at hd; exact hd.symm
    subst this
    rename_i ws
    cases ws <;> simp only [MeansFields] at hm
    rename_i w ws
    obtain ⟨⟨u, hu, hm⟩, _⟩ := hm
    simp [Dyn.attr, Dyn.attrs, List.lookup] at hu
    subst hu
    cases w <;> simp [Means, Γ₀, ruby] at hm
    rename_i i ws
    have hm := hm.2.1
    rcases i with _ | _ | _ | _ | i <;> simp at hm
  · simp [Γ₀] at hm

end Verif.Props.Dynamic
