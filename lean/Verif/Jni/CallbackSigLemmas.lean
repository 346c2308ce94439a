import Verif.Jni.CallbackSigSpec
/-
Lemmas for C80: descriptors.
-/
namespace Verif.JniCallback
open Verif.Jni

/-- The type of the JVM for an FFI type. -/
def jvmOf (f : Ffi) : Jvm := match f with
  | .int8 => .byte
  | .int16 => .short
  | .int32 => .int
  | .int64 => .long
  | .float32 => .float
  | .float64 => .double
  | .boolean => .boolean
  | .string => .class "java/lang/String".toList
  | .byteBuffer => .class "java/nio/ByteBuffer".toList
  | .byteArray => .array 'B'
  | .shortArray => .array 'S'
  | .intArray => .array 'I'
  | .longArray => .array 'J'
  | .floatArray => .array 'F'
  | .doubleArray => .array 'D'

theorem compiled_ktOf (f : Ffi) : compiled (ktOf f) = some (jvmOf f) := by cases f <;> rfl

theorem reads_jvmOf (f : Ffi) : reads (jvmOf f) = fieldOf f := by cases f <;> rfl

theorem readType_sigOf (f : Ffi) (cs : List Char) : readType (sigOf f ++ cs) = some (jvmOf f, cs) := by
  cases f <;> rfl

theorem compiled_map (fs : List Ffi) : (fs.map ktOf).filterMap compiled = fs.map jvmOf := by
  induction fs with
  | nil => rfl
  | cons f fs ih => simp [compiled_ktOf, ih]

theorem describes_args (fs : List Ffi) (cs : List Char) (ps : List Jvm) (r : Option Jvm) (h : describesRest cs ps r) :
    describesRest (fs.flatMap sigOf ++ cs) (fs.map jvmOf ++ ps) r := by
  induction fs with
  | nil => exact h
  | cons f fs ih =>
    refine ⟨fs.flatMap sigOf ++ cs, ?_, ih⟩
    rw [List.flatMap_cons, List.append_assoc, readType_sigOf]

theorem describes_long (cs : List Char) (ps : List Jvm) (r : Option Jvm) (h : describesRest cs ps r) :
    describesRest ('J' :: cs) (.long :: ps) r := ⟨cs, rfl, h⟩

/-- What a descriptor says is unique. -/
theorem describesRest_unique : ∀ (ps ps' : List Jvm) (cs : List Char) (r r' : Option Jvm), describesRest cs ps r →
    describesRest cs ps' r' → ps = ps' ∧ r = r'
  | [], [], cs, none, none, _, _ => ⟨rfl, rfl⟩
  | [], [], cs, none, some t, h, h' => by
    obtain ⟨rest, e, hr⟩ := h'
    rw [show cs = [')', 'V'] from h] at e
    cases e
    cases hr
  | [], [], cs, some t, none, h, h' => by
    obtain ⟨rest, e, hr⟩ := h
    rw [show cs = [')', 'V'] from h'] at e
    cases e
    cases hr
  | [], [], cs, some t, some t', h, h' => by
    obtain ⟨rest, e, hr⟩ := h
    obtain ⟨rest', e', hr'⟩ := h'
    rw [e] at e'
    cases e'
    rw [hr] at hr'
    cases hr'
    exact ⟨rfl, rfl⟩
  | [], p :: ps, cs, none, r', h, h' => by
    obtain ⟨rest, e, _⟩ := h'
    rw [show cs = [')', 'V'] from h] at e
    cases e
  | [], p :: ps, cs, some t, r', h, h' => by
    obtain ⟨rest, e, _⟩ := h
    obtain ⟨rest', e', _⟩ := h'
    rw [e] at e'
    cases e'
  | p :: ps, [], cs, r, none, h, h' => by
    obtain ⟨rest, e, _⟩ := h
    rw [show cs = [')', 'V'] from h'] at e
    cases e
  | p :: ps, [], cs, r, some t, h, h' => by
    obtain ⟨rest, e, _⟩ := h'
    obtain ⟨rest', e', _⟩ := h
    rw [e] at e'
    cases e'
  | p :: ps, p' :: ps', cs, r, r', h, h' => by
    obtain ⟨rest, e, hr⟩ := h
    obtain ⟨rest', e', hr'⟩ := h'
    rw [e] at e'
    cases e'
    obtain ⟨rfl, rfl⟩ := describesRest_unique ps ps' rest r r' hr hr'
    exact ⟨rfl, rfl⟩

theorem describes_unique {cs : List Char} {ps ps' : List Jvm} {r r' : Option Jvm} (h : Describes cs ps r)
    (h' : Describes cs ps' r') : ps = ps' ∧ r = r' := by
  obtain ⟨a, e, h⟩ := h
  obtain ⟨b, e', h'⟩ := h'
  rw [e] at e'
  cases e'
  exact describesRest_unique ps ps' a r r' h h'

/-- The end of the signature. -/
theorem describes_ret (m : Meth) :
    describesRest ([')'] ++ (if !m.isAsync then
      match m.returnFfi with
      | .primitive f => sigOf f
      | _ => ['V']
    else ['V'])) [] (compiled m.ktReturn) := by
  unfold Meth.ktReturn
  cases hA : m.isAsync with
  | true => rfl
  | false =>
    cases hR : m.returnFfi with
    | void => rfl
    | deconstruct fs => rfl
    | primitive f =>
      simp only [Bool.not_false, if_true, Bool.false_eq_true, if_false, compiled_ktOf]
      exact ⟨sigOf f, rfl, by simpa using readType_sigOf f []⟩

theorem describes_sig (m : Meth) : Describes m.jniSignature (m.ktParams.filterMap compiled) (compiled m.ktReturn) := by
  unfold Meth.jniSignature
  refine ⟨['J'] ++ (if m.hasReturnPointer then ['J'] else []) ++ (if m.isAsync then ['J'] else []) ++
    (m.args.flatMap ArgKind.taken).flatMap sigOf ++ ([')'] ++ (if !m.isAsync then
      match m.returnFfi with
      | .primitive f => sigOf f
      | _ => ['V']
    else ['V'])), by simp only [List.append_assoc]; rfl, ?_⟩
  have h := describes_args (m.args.flatMap ArgKind.taken) _ _ _ (describes_ret m)
  rw [List.append_nil] at h
  unfold Meth.ktParams
  cases hA : m.isAsync with
  | true =>
    have hp : m.hasReturnPointer = false := by simp [Meth.hasReturnPointer, hA]
    rw [hA] at h
    simp only [hp, if_true, Bool.false_eq_true, if_false, List.filterMap_append, compiled_map, List.append_assoc]
    exact describes_long _ _ _ (describes_long _ _ _ h)
  | false =>
    rw [hA] at h
    cases hp : m.hasReturnPointer with
    | true =>
      simp only [if_true, Bool.false_eq_true, if_false, List.filterMap_append, compiled_map, List.append_assoc]
      exact describes_long _ _ _ (describes_long _ _ _ h)
    | false =>
      simp only [Bool.false_eq_true, if_false, List.filterMap_append, compiled_map, List.append_assoc]
      exact describes_long _ _ _ h

/-- What is passed is what is taken, unless bytes are borrowed. -/
theorem passed_taken {args : List ArgKind} (h : ArgKind.bytesRef ∉ args) :
    args.flatMap ArgKind.passed = args.flatMap ArgKind.taken := by
  induction args with
  | nil => rfl
  | cons a as ih =>
    rw [List.flatMap_cons, List.flatMap_cons, ih (fun hm => h (List.mem_cons_of_mem _ hm))]
    cases a with
    | bytesRef => exact absurd (List.mem_cons_self ..) h
    | objectRef => rfl
    | standard l => rfl

theorem compiled_long : compiled .long = some .long := rfl

theorem reads_long : reads .long = .j := rfl

theorem reads_compiled (fs : List Ffi) : ((fs.map ktOf).filterMap compiled).map reads = fs.map fieldOf := by
  rw [compiled_map]
  simp [reads_jvmOf]

theorem passes_eq {m : Meth} (h : ArgKind.bytesRef ∉ m.args) :
    m.passes = (m.ktParams.filterMap compiled).map reads := by
  unfold Meth.passes Meth.ktParams
  rw [passed_taken h]
  cases m.isAsync <;> cases m.hasReturnPointer <;>
    simp only [Bool.false_eq_true, if_true, if_false, List.filterMap_append, List.map_append, reads_compiled] <;> rfl

theorem callName_ok {m : Meth} (hs : m.isAsync = false) (hb : m.ret ≠ some [.boolean]) :
    mayCall m.callName (compiled m.ktReturn) = true := by
  unfold Meth.callName Meth.ktReturn Meth.returnFfi
  rw [hs]
  cases hr : m.ret with
  | none => rfl
  | some fs =>
    match fs with
    | [] => rfl
    | [f] => cases f <;> first | rfl | exact absurd hr hb
    | _ :: _ :: _ => simp [mayCall, compiled]

end Verif.JniCallback
