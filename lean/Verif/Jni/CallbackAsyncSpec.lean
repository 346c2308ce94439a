import Verif.Jni.CallbackAsync
/-
What an async method that Kotlin implements should give to Rust.
-/
namespace Verif.JniCallback

variable {K E L R F : Type}

/-- The result that Rust should get for what the coroutine did. `.error msg`: a failure that the
method does not declare. -/
inductive Brings (m : AMethod K E L R F) : How K E → Sent R F → Prop
  /-- What the method returned. -/
  | nothing {k : K} : m.void = true → Brings m (.ends (.returns k)) (.ok (.ok m.codec.unit))
  | value {k : K} {l : L} {r : R} : m.void = false → m.codec.lowerRet k = .ok l → m.codec.liftRet l = .ok r →
      Brings m (.ends (.returns k)) (.ok (.ok r))
  /-- The declared error that the method threw. -/
  | error {e : E} {l : L} {f : F} : m.throws = true → m.codec.lowerErr e = .ok l → m.codec.liftErr l = .ok f →
      Brings m (.ends (.declared e)) (.ok (.error f))
  /-- Values that Rust can not lift, also because user code panics. -/
  | badValue {k : K} {l : L} {t : String} : m.void = false → m.codec.lowerRet k = .ok l → m.codec.liftRet l = .err t →
      Brings m (.ends (.returns k)) (.error t)
  | valuePanic {k : K} {l : L} {t : String} : m.void = false → m.codec.lowerRet k = .ok l → m.codec.liftRet l = .panic t →
      Brings m (.ends (.returns k)) (.error ("Rust panic: " ++ t))
  | badError {e : E} {l : L} {t : String} : m.throws = true → m.codec.lowerErr e = .ok l → m.codec.liftErr l = .err t →
      Brings m (.ends (.declared e)) (.error t)
  | errorPanic {e : E} {l : L} {t : String} : m.throws = true → m.codec.lowerErr e = .ok l → m.codec.liftErr l = .panic t →
      Brings m (.ends (.declared e)) (.error ("Rust panic: " ++ t))
  /-- All other exceptions. -/
  | noObject : Brings m .noObject (.error "Unexpected callback error")
  | noArgs {x : Exc} : Brings m (.noArgs x) (.error "Unexpected callback error")
  | other {x : Exc} : Brings m (.ends (.other x)) (.error "Unexpected callback error")
  | undeclared {e : E} : m.throws = false → Brings m (.ends (.declared e)) (.error "Unexpected callback error")
  | lowerValue {k : K} {x : Exc} : m.void = false → m.codec.lowerRet k = .error x →
      Brings m (.ends (.returns k)) (.error "Unexpected callback error")
  | lowerError {e : E} {x : Exc} : m.throws = true → m.codec.lowerErr e = .error x →
      Brings m (.ends (.declared e)) (.error "Unexpected callback error")

/-- The coroutine is done with the call. -/
def CPc.done : CPc R F → Bool
  | .none => true
  | .ended => true
  | _ => false

end Verif.JniCallback
