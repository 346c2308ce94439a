/-
Values of the Kotlin types that results of generated functions have.
-/
namespace Verif.JniCallback

/-- The text is a value of the type, `none` for a function without result. Only the values in use are here. -/
def IsValue : Option String → String → Prop
  | none, v => v = "Unit"
  | some "Byte", v => v = "0.toByte()"
  | some "Short", v => v = "0.toShort()"
  | some "Int", v => v = "0"
  | some "Long", v => v = "0L"
  | some "Float", v => v = "0.0f"
  | some "Double", v => v = "0.0"
  | some "Boolean", v => v = "false"
  | some s, v => s.toList.getLast? = some '?' ∧ v = "null"

end Verif.JniCallback
