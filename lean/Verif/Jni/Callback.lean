/-
Calling methods that Kotlin implements from Rust, through JNI: methods that are not async.
uniffi-bindgen-kotlin-jni: scaffolding/templates/callback_interface.rs, callback_interface_shared.rs;
bindings/templates/shared/CallbackInterfaceFfi.kt, CallbackInterfaces.kt; runtime/src/attach.rs,
errors.rs, caching.rs.

The types: `K` and `E` are what Kotlin methods return and the errors they declare, `L` is what native
functions take, `R` and `F` are the same for Rust. How values are converted is a parameter here
(`Codec`); C70 to C73 are about it.
-/
namespace Verif.JniCallback

variable {K E L R F : Type}

/-- A Kotlin exception: what its `getMessage` does. -/
inductive Exc where
  | message (s : String)
  /-- It returns `null`. -/
  | noMessage
  /-- It throws. -/
  | badMessage
  deriving DecidableEq, Repr

/-- The result of Rust code that converts values: user code may be part of it (custom types). -/
inductive Conv (α : Type) where
  | ok (a : α)
  /-- An error, with its text. -/
  | err (msg : String)
  | panic (msg : String)
  deriving DecidableEq, Repr

/-- The return type of a method: `ReturnFfi`, see `CallbackSig.lean`. -/
inductive RetKind where
  | void
  /-- One FFI value, returned by the Kotlin function. -/
  | primitive
  /-- Several FFI values, or none: given to `setCallbackReturn`. -/
  | deconstruct
  deriving DecidableEq, Repr

/-- How the Kotlin method ends. -/
inductive Ends (K E : Type) where
  | returns (k : K)
  /-- It throws an exception of the type it declares. -/
  | declared (e : E)
  /-- It throws something else. -/
  | other (x : Exc)
  deriving DecidableEq, Repr

/-- What the Rust code that calls a method sees. -/
inductive Out (R F : Type) where
  | value (r : R)
  /-- The method returns `Err`. -/
  | error (f : F)
  | panics (msg : String)
  /-- The process ends: a panic reached the end of an `extern` function. -/
  | aborts
  deriving DecidableEq, Repr

/-- The functions for one method. -/
structure Codec (K E L R F : Type) where
  /-- Lower functions of the return type and the error type in Kotlin. They may throw. -/
  lowerRet : K → Except Exc L
  lowerErr : E → Except Exc L
  /-- Lift functions in Rust. -/
  liftRet : L → Conv R
  liftErr : L → Conv F
  /-- `default_return_kt`, `callbacks.rs:182-187`. -/
  default : L
  /-- `()` -/
  unit : R
  /-- The `message` of the declared error, seen as any other exception. -/
  asExc : E → Exc
  /-- `From<UnexpectedUniFFICallbackError>` for the error type. -/
  fromUnexpected : String → F

/-- A call of a method. -/
structure Call (K E L R F : Type) where
  ret : RetKind
  /-- The method has an error type. -/
  throws : Bool
  /-- The error type can be made from an unexpected error, `has_from_unexpected_callback_error_impl`. -/
  hasFrom : Bool
  codec : Codec K E L R F
  /-- The handle is in the map of Kotlin. -/
  found : Bool
  /-- Lowering the arguments in Rust. -/
  lowerArgs : Conv Unit
  /-- Lifting the arguments in Kotlin. -/
  liftArgs : Except Exc Unit

/-- `has_return_pointer`, `callbacks.rs:147-156`. -/
def Call.hasPointer (c : Call K E L R F) : Bool := c.ret == .deconstruct || c.throws

/-- A thread: the variables `return_value` of the calls that are on its stack, addressed by their
position; the local frames of JNI references; whether an exception is pending. -/
structure Thread (R F : Type) where
  slots : List (Option (Except F R)) := []
  frames : Nat := 0
  pending : Bool := false

/-- `result_pointer.write(Some(..))`, `callback_interface_shared.rs:23-27` and `58`. -/
def Thread.write (s : Thread R F) (p : Nat) (v : Except F R) : Thread R F := { s with slots := s.slots.set p (some v) }

/-- How the Kotlin function ends, as seen by `CachedStaticMethod::call_*`. -/
inductive KEnd (L : Type) where
  | returns (l : L)
  | throws (x : Exc)
  | aborts

/-- `setCallbackReturn`, `callback_interface_shared.rs:4-33`. It is not inside of `rust_call`. -/
def setReturn (c : Call K E L R F) (p : Nat) (l : L) (s : Thread R F) : Thread R F × KEnd L :=
  match c.codec.liftRet l with
  | .ok r => (s.write p (.ok r), .returns c.codec.default)
  | .err m => (s, .throws (.message ("setCallbackReturn failed: " ++ m)))
  | .panic _ => (s, .aborts)

/-- `setCallbackError`, `callback_interface_shared.rs:37-66`. -/
def setError (c : Call K E L R F) (p : Nat) (l : L) (s : Thread R F) : Thread R F × KEnd L :=
  match c.codec.liftErr l with
  | .ok f => (s.write p (.error f), .returns c.codec.default)
  | .err m => (s, .throws (.message ("setCallbackReturn failed: " ++ m)))
  | .panic _ => (s, .aborts)

/-- What the method does: how it ends, or the process ends while it runs. -/
inductive Body (K E : Type) where
  | ends (e : Ends K E)
  | aborts
  deriving DecidableEq, Repr

/-- The generated Kotlin function, `CallbackInterfaceFfi.kt:7-70`. `body` is the method of the user. -/
def kotlinDispatch (c : Call K E L R F) (body : Thread R F → Thread R F × Body K E) (p : Nat) (s : Thread R F) :
    Thread R F × KEnd L :=
  if c.found then
    match c.liftArgs with
    | .error x => (s, .throws x)
    | .ok () =>
      match body s with
      | (s, .aborts) => (s, .aborts)
      | (s, .ends (.other x)) => (s, .throws x)
      | (s, .ends (.declared e)) =>
        if c.throws then
          match c.codec.lowerErr e with
          | .error x => (s, .throws x)
          | .ok l => setError c p l s
        else (s, .throws (c.codec.asExc e))
      | (s, .ends (.returns k)) =>
        match c.ret with
        | .void => (s, .returns c.codec.default)
        | .primitive =>
          match c.codec.lowerRet k with
          | .error x => (s, .throws x)
          | .ok l => (s, .returns l)
        | .deconstruct =>
          match c.codec.lowerRet k with
          | .error x => (s, .throws x)
          | .ok l => setReturn c p l s
  else (s, .throws (.message "HandleMap.get: Invalid handle"))

/-- What the Rust function that dispatches returns: `uniffi::Result` of the result of the method. -/
inductive Dispatched (R F : Type) where
  | ok (v : Except F R)
  | err (msg : String)
  | panic (msg : String)
  | aborts

/-- `throwable_get_message`, `errors.rs:28-46`, after `ExceptionClear`: if `getMessage` throws, it gives
null to the caller and leaves the exception pending. -/
def getMessage (x : Exc) : String × Bool :=
  match x with
  | .message m => (m, false)
  | .noMessage => ("NULL", false)
  | .badMessage => ("NULL", true)

/-- Lifting a primitive return value, then `Ok(..)` or `Ok(Ok(..))` (`callback_interface.rs:106`, `115`,
`122-126`). -/
def liftPrimitive (c : Call K E L R F) (l : L) : Dispatched R F :=
  match c.codec.liftRet l with
  | .ok r => .ok (.ok r)
  | .err m => .err m
  | .panic m => .panic m

/-- What is made of the end of the Kotlin function, `callback_interface.rs:95-133`. -/
def afterCall (c : Call K E L R F) (p : Nat) : Thread R F × KEnd L → Thread R F × Dispatched R F
  | (s, .aborts) => (s, .aborts)
  | (s, .throws x) => ({ s with pending := (getMessage x).2 }, .err (getMessage x).1)
  | (s, .returns l) =>
    (s, if c.hasPointer then
        match s.slots[p]? with
        | some (some v) => .ok v
        | _ => match c.ret with
          | .deconstruct => .err "no return value set"
          | .primitive => liftPrimitive c l
          | .void => .ok (.ok c.codec.unit)
      else match c.ret with
        | .primitive => liftPrimitive c l
        | _ => .ok (.ok c.codec.unit))

/-- `callback_interface.rs:56-135` inside of `attach_current_thread` (`attach.rs:19-47`): a panic skips
`PopLocalFrame`. The variable `return_value` goes away in any case. -/
def rustDispatch (c : Call K E L R F) (body : Thread R F → Thread R F × Body K E) (s : Thread R F) :
    Thread R F × Dispatched R F :=
  let p := s.slots.length
  let s1 : Thread R F := { s with
    frames := s.frames + 1
    slots := if c.hasPointer then s.slots ++ [none] else s.slots }
  let (s2, d) := match c.lowerArgs with
    | .err m => (s1, Dispatched.err m)
    | .panic m => (s1, .panic m)
    | .ok () => afterCall c p (kotlinDispatch c body p s1)
  let s3 := { s2 with slots := s2.slots.take p }
  match d with
  | .panic m => (s3, .panic m)
  | .aborts => (s3, .aborts)
  | d => ({ s3 with frames := s3.frames - 1 }, d)

/-- The implementation of the trait, `callback_interface.rs:12-46`. -/
def method (c : Call K E L R F) (body : Thread R F → Thread R F × Body K E) (s : Thread R F) : Thread R F × Out R F :=
  match rustDispatch c body s with
  | (s, .ok (.ok r)) => (s, .value r)
  | (s, .ok (.error f)) => (s, .error f)
  | (s, .err m) =>
    (s, if c.throws && c.hasFrom then .error (c.codec.fromUnexpected m)
      else .panics ("Error calling UniFFI callback method: " ++ m))
  | (s, .panic m) => (s, .panics m)
  | (s, .aborts) => (s, .aborts)

/-- What the Kotlin code of a method does: it may call Rust functions that call methods again, any
number of times and to any depth, before it ends. -/
inductive Code (K E L R F : Type) where
  | ends (e : Ends K E)
  /-- A function of Rust is called, which makes the call `c` of a method with the code `inner`. Then
  the code goes on, depending on what Rust saw. If an exception was left pending, it is thrown when
  the function of Rust returns. -/
  | calls (c : Call K E L R F) (inner : Code K E L R F) (next : Out R F → Bool → Code K E L R F)

/-- Running it. -/
def run : Code K E L R F → Thread R F → Thread R F × Body K E
  | .ends e, s => (s, .ends e)
  | .calls c inner next, s =>
    match method c (run inner) s with
    | (s, .aborts) => (s, .aborts)
    | (s, o) => run (next o s.pending) { s with pending := false }

end Verif.JniCallback
