import Verif.Jni.CallbackSig
/-
What the JVM says about calling methods: descriptors (Java Virtual Machine Specification 4.3.3), how
Kotlin types are compiled, and which JNI function may call which method.
-/
namespace Verif.JniCallback

/-- Types of the JVM. -/
inductive Jvm where
  | byte | short | int | long | float | double | boolean
  /-- A class, by its name. -/
  | class (name : List Char)
  /-- Arrays of primitive values. -/
  | array (elem : Char)
  deriving DecidableEq, Repr

/-- The name of a class: everything up to the semicolon. -/
def className : List Char → Option (List Char × List Char)
  | [] => none
  | ';' :: cs => some ([], cs)
  | c :: cs => (className cs).map fun (n, rest) => (c :: n, rest)

/-- Read one type of a descriptor. -/
def readType : List Char → Option (Jvm × List Char)
  | 'B' :: cs => some (.byte, cs)
  | 'S' :: cs => some (.short, cs)
  | 'I' :: cs => some (.int, cs)
  | 'J' :: cs => some (.long, cs)
  | 'F' :: cs => some (.float, cs)
  | 'D' :: cs => some (.double, cs)
  | 'Z' :: cs => some (.boolean, cs)
  | 'L' :: cs => (className cs).map fun (n, rest) => (.class n, rest)
  | '[' :: c :: cs => some (.array c, cs)
  | _ => none

/-- What stands after the opening parenthesis: the parameters, the closing one, and the return type
or `V`. -/
def describesRest : List Char → List Jvm → Option Jvm → Prop
  | cs, [], none => cs = [')', 'V']
  | cs, [], some t => ∃ rest, cs = ')' :: rest ∧ readType rest = some (t, [])
  | cs, p :: ps, r => ∃ rest, readType cs = some (p, rest) ∧ describesRest rest ps r

/-- The text is the descriptor of a method with these parameters and this return type (`none`:
`void`). -/
def Describes (cs : List Char) (ps : List Jvm) (r : Option Jvm) : Prop :=
  ∃ rest, cs = '(' :: rest ∧ describesRest rest ps r

/-- How Kotlin compiles the types of parameters and results: primitive types to primitive types
(never boxed, as they are not nullable), `String` and `ByteBuffer` to the Java classes, arrays to
arrays, and `Unit` as the type of a result to `void`. -/
def compiled : KtType → Option Jvm
  | .byte => some .byte
  | .short => some .short
  | .int => some .int
  | .long => some .long
  | .float => some .float
  | .double => some .double
  | .boolean => some .boolean
  | .string => some (.class "java/lang/String".toList)
  | .byteBuffer => some (.class "java/nio/ByteBuffer".toList)
  | .byteArray => some (.array 'B')
  | .shortArray => some (.array 'S')
  | .intArray => some (.array 'I')
  | .longArray => some (.array 'J')
  | .floatArray => some (.array 'F')
  | .doubleArray => some (.array 'D')
  | .unit => none

/-- The member of `jvalue` that the JVM reads for a parameter. -/
def reads : Jvm → JField
  | .byte => .b
  | .short => .s
  | .int => .i
  | .long => .j
  | .float => .f
  | .double => .d
  | .boolean => .z
  | .class _ => .l
  | .array _ => .l

/-- The function of the JNI that may call a static method with this return type: "The return type of
the method must be that of the function" (JNI specification, `CallStatic<type>Method`). -/
def mayCall : CallName → Option Jvm → Bool
  | .void, none => true
  | .byte, some .byte => true
  | .short, some .short => true
  | .int, some .int => true
  | .long, some .long => true
  | .float, some .float => true
  | .double, some .double => true
  | .object, some (.class _) => true
  | .object, some (.array _) => true
  | _, _ => false

end Verif.JniCallback
