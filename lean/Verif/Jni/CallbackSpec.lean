import Verif.Jni.Callback
/-
What a call of a Kotlin method from Rust should come to. Nothing here knows about pointers, frames or
default values.
-/
namespace Verif.JniCallback

variable {K E L R F : Type}

/-- The text that Rust gets from an exception. -/
inductive Text : Exc → String → Prop
  | message (m : String) : Text (.message m) m
  | none : Text .noMessage "NULL"
  | bad : Text .badMessage "NULL"

/-- The method is called: its arguments arrive, and the object is there. -/
def Call.Called (c : Call K E L R F) : Prop := c.lowerArgs = .ok () ∧ c.found = true ∧ c.liftArgs = .ok ()

/-- The exception `x` arrives in Rust instead of a result. `b` is what the method would do, if it is
called. -/
inductive Thrown (c : Call K E L R F) : Body K E → Exc → Prop
  /-- The object was dropped. -/
  | noObject {b : Body K E} : c.lowerArgs = .ok () → c.found = false → Thrown c b (.message "HandleMap.get: Invalid handle")
  /-- An argument can not be lifted. -/
  | args {b : Body K E} {x : Exc} : c.lowerArgs = .ok () → c.found = true → c.liftArgs = .error x → Thrown c b x
  /-- The method throws what it does not declare. -/
  | other {x : Exc} : c.Called → Thrown c (.ends (.other x)) x
  | undeclared {e : E} : c.Called → c.throws = false → Thrown c (.ends (.declared e)) (c.codec.asExc e)
  /-- The result or the error can not be lowered. -/
  | lowerError {e : E} {x : Exc} : c.Called → c.throws = true → c.codec.lowerErr e = .error x →
      Thrown c (.ends (.declared e)) x
  | lowerValue {k : K} {x : Exc} : c.Called → c.ret ≠ .void → c.codec.lowerRet k = .error x →
      Thrown c (.ends (.returns k)) x
  /-- The result or the error can not be lifted by Rust, called by Kotlin. -/
  | liftError {e : E} {l : L} {m : String} : c.Called → c.throws = true → c.codec.lowerErr e = .ok l →
      c.codec.liftErr l = .err m → Thrown c (.ends (.declared e)) (.message ("setCallbackReturn failed: " ++ m))
  | liftValue {k : K} {l : L} {m : String} : c.Called → c.ret = .deconstruct → c.codec.lowerRet k = .ok l →
      c.codec.liftRet l = .err m → Thrown c (.ends (.returns k)) (.message ("setCallbackReturn failed: " ++ m))

/-- The call fails in a way that the method does not declare; `msg` says how. -/
inductive Fails (c : Call K E L R F) : Body K E → String → Prop
  | thrown {b : Body K E} {x : Exc} {msg : String} : Thrown c b x → Text x msg → Fails c b msg
  /-- An argument can not be lowered. -/
  | args {b : Body K E} {msg : String} : c.lowerArgs = .err msg → Fails c b msg
  /-- The result that was returned can not be lifted. -/
  | value {k : K} {l : L} {msg : String} : c.Called → c.ret = .primitive → c.codec.lowerRet k = .ok l →
      c.codec.liftRet l = .err msg → Fails c (.ends (.returns k)) msg

/-- What Rust should see of the call. -/
inductive Gives (c : Call K E L R F) : Body K E → Out R F → Prop
  /-- What the method returned. -/
  | nothing {k : K} : c.Called → c.ret = .void → Gives c (.ends (.returns k)) (.value c.codec.unit)
  | value {k : K} {l : L} {r : R} : c.Called → c.ret ≠ .void → c.codec.lowerRet k = .ok l → c.codec.liftRet l = .ok r →
      Gives c (.ends (.returns k)) (.value r)
  /-- The declared error that the method threw. -/
  | error {e : E} {l : L} {f : F} : c.Called → c.throws = true → c.codec.lowerErr e = .ok l → c.codec.liftErr l = .ok f →
      Gives c (.ends (.declared e)) (.error f)
  /-- Other failures become an error of the error type of the method if there is a conversion, and
  panics otherwise. -/
  | converted {b : Body K E} {msg : String} : Fails c b msg → c.throws = true → c.hasFrom = true →
      Gives c b (.error (c.codec.fromUnexpected msg))
  | panics {b : Body K E} {msg : String} : Fails c b msg → (c.throws = false ∨ c.hasFrom = false) →
      Gives c b (.panics ("Error calling UniFFI callback method: " ++ msg))
  /-- Panics of user code that converts arguments or a returned value go on. -/
  | argsPanic {b : Body K E} {msg : String} : c.lowerArgs = .panic msg → Gives c b (.panics msg)
  | valuePanic {k : K} {l : L} {msg : String} : c.Called → c.ret = .primitive → c.codec.lowerRet k = .ok l →
      c.codec.liftRet l = .panic msg → Gives c (.ends (.returns k)) (.panics msg)
  /-- Panics of user code that converts other values end the process. -/
  | valueAborts {k : K} {l : L} {msg : String} : c.Called → c.ret = .deconstruct → c.codec.lowerRet k = .ok l →
      c.codec.liftRet l = .panic msg → Gives c (.ends (.returns k)) .aborts
  | errorAborts {e : E} {l : L} {msg : String} : c.Called → c.throws = true → c.codec.lowerErr e = .ok l →
      c.codec.liftErr l = .panic msg → Gives c (.ends (.declared e)) .aborts
  /-- The process ended while the method ran. -/
  | aborts : c.Called → Gives c .aborts .aborts

/-- What Kotlin code comes to: `b` is how it ends. -/
inductive Comes : Code K E L R F → Body K E → Prop
  | ends (e : Ends K E) : Comes (.ends e) (.ends e)
  | calls {c : Call K E L R F} {inner : Code K E L R F} {next : Out R F → Bool → Code K E L R F} {b b' : Body K E} {o : Out R F}
      {pending : Bool} : Comes inner b → Gives c b o → o ≠ .aborts → (pending = true ↔ Thrown c b .badMessage) →
      Comes (next o pending) b' → Comes (.calls c inner next) b'
  | aborts {c : Call K E L R F} {inner : Code K E L R F} {next : Out R F → Bool → Code K E L R F} {b : Body K E} :
      Comes inner b → Gives c b .aborts → Comes (.calls c inner next) .aborts

/-- No user code that converts values panics. -/
def Call.Calm (c : Call K E L R F) : Prop :=
  (∀ m, c.lowerArgs ≠ .panic m) ∧ (∀ l m, c.codec.liftRet l ≠ .panic m)

/-- ... in all calls of some code. -/
def Code.Calm : Code K E L R F → Prop
  | .ends _ => True
  | .calls c inner next => c.Calm ∧ inner.Calm ∧ ∀ o p, (next o p).Calm

end Verif.JniCallback
