import Verif.Wire.Foreign
/-
Calls from foreign code into Rust and from Rust into foreign code: status reporting, argument
lifting, return lowering, and the foreign status checks.

Buffers are represented by their contents here; who owns and frees them is in Verif/Buffer.
-/
namespace Verif.Call
open Verif Verif.Wire

deriving instance DecidableEq for Except

/-! ### Panics -/

/-- What a panic carries: a `&'static str`, a `String`, or something else. -/
inductive Payload where
  | str (s : String)
  | string (s : String)
  | other
  deriving DecidableEq, Repr

/-- Running Rust code: it returns, panics, or has undefined behaviour. -/
inductive Eff (α : Type) where
  | ret (a : α)
  | panic (p : Payload)
  | ub
  deriving DecidableEq, Repr

/-- Statement sequencing. -/
def Eff.bind {α β : Type} : Eff α → (α → Eff β) → Eff β
  | .ret a, f => f a
  | .panic p, _ => .panic p
  | .ub, _ => .ub

/-- `std::panic::catch_unwind`. -/
def catchUnwind {α : Type} : Eff α → Eff (Except Payload α)
  | .ret a => .ret (.ok a)
  | .panic p => .ret (.error p)
  | .ub => .ub

/-! ### `RustCallStatus` and `rust_call` -/

/-- `RustCallStatusCode`: uniffi_core/src/ffi/rustcalls.rs:79-98. -/
inductive Code where
  | success
  | error
  | unexpected
  | cancelled
  deriving DecidableEq, Repr

/-- The number of a code on the wire: rustcalls.rs:84-97 (`#[repr(i8)]`). -/
def Code.toInt : Code → Int
  | .success => 0
  | .error => 1
  | .unexpected => 2
  | .cancelled => 3

/-- `TryFrom<i8> for RustCallStatusCode`: rustcalls.rs:100-112. -/
def Code.ofInt (z : Int) : Option Code :=
  if z = 0 then some .success
  else if z = 1 then some .error
  else if z = 2 then some .unexpected
  else if z = 3 then some .cancelled
  else none

/-- `RustCallStatus`: rustcalls.rs:42-52, `Default`: 64-71. -/
structure Status where
  code : Code := .success
  buf : Bytes := []
  deriving DecidableEq, Repr

/-- `RustCallError`: rustcalls.rs:120-129. -/
inductive CallError where
  | error (buf : Bytes)
  | internal (msg : String)
  deriving DecidableEq, Repr

/-- The message taken from a panic payload: rustcalls.rs:228-234. -/
def Payload.message : Payload → String
  | .str s => s
  | .string s => s
  | .other => "Unknown panic!"

/-- `rust_call_with_out_status`: rustcalls.rs:200-251. `lowerMsg` is `<String as Lower>::lower`,
which is allowed to panic here because the code guards against that in one of the two places it
is called. -/
def rustCallWithOutStatus {α : Type} (lowerMsg : String → Eff Bytes) (st : Status)
    (callback : Eff (Except CallError α)) : Eff (Option α × Status) :=
  (catchUnwind callback).bind fun result =>
    match result with
    | .ok (.ok v) => .ret (some v, st)
    | .ok (.error (.error buf)) => .ret (none, { st with code := .error, buf := buf })
    | .ok (.error (.internal msg)) =>
      (lowerMsg msg).bind fun b => .ret (none, { st with code := .unexpected, buf := b })
    | .error cause =>
      (catchUnwind (lowerMsg cause.message)).bind fun r =>
        match r with
        | .ok b => .ret (none, { st with code := .unexpected, buf := b })
        | .error _ => .ret (none, { st with code := .unexpected })

/-- `rust_call`: rustcalls.rs:164-170. `dflt` is `R::ffi_default()`. -/
def rustCall {α : Type} (lowerMsg : String → Eff Bytes) (dflt : α) (st : Status)
    (callback : Eff (Except CallError α)) : Eff (α × Status) :=
  (rustCallWithOutStatus lowerMsg st callback).bind fun r =>
    .ret ((match r.1 with | some v => v | none => dflt), r.2)

/-- `try_rust_call`: rustcalls.rs:183-192. -/
def tryRustCall {α : Type} (lowerMsg : String → Eff Bytes)
    (callback : Eff (Except CallError α)) : Eff (Except Status α) :=
  (rustCallWithOutStatus lowerMsg {} callback).bind fun r =>
    match r.1 with
    | some v => .ret (.ok v)
    | none => .ret (.error r.2)

/-- `<String as Lower>::lower`: the bytes of the string, without a length.
ffi_converter_impls.rs:126-128. -/
def lowerString (s : String) : Eff Bytes := .ret (utf8 s)

/-! ### The scaffolding function of an exported function -/

/-- An `anyhow::Error` raised while lifting: what `downcast::<E>()` gives for the error type `E`
of the function being called, and the text `{error:?}`. -/
structure AnyErr (E : Type) where
  user : Option E
  text : String
  deriving DecidableEq, Repr

/-- What the code does, in order: lift an argument, run the exported function. -/
inductive Event (V : Type) where
  | lift (name : String)
  | call (args : List V)
  deriving DecidableEq, Repr

/-- An argument as the scaffolding sees it: its name and what `try_lift` does on what was passed. -/
structure Arg (V E : Type) where
  name : String
  lift : Eff (Except (AnyErr E) V)

/-- The closure made by `lift_closure`: uniffi_macros/src/fnsig.rs:203-223. A tuple expression is
evaluated left to right; the first failing `match` returns from the closure. The receiver of a
method is the first element (uniffi_macros/src/export/scaffolding.rs:143-165). -/
def liftArgs {V E : Type} : List (Arg V E) →
    List (Event V) × Eff (Except (String × AnyErr E) (List V))
  | [] => ([], .ret (.ok []))
  | a :: as =>
    match a.lift with
    | .ret (.ok v) =>
      let (log, r) := liftArgs as
      (.lift a.name :: log, r.bind fun
        | .ok vs => .ret (.ok (v :: vs))
        | .error e => .ret (.error e))
    | .ret (.error e) => ([.lift a.name], .ret (.error (a.name, e)))
    | .panic p => ([.lift a.name], .panic p)
    | .ub => ([.lift a.name], .ub)

/-- An exported Rust function as its scaffolding sees it. A function that does not return `Result`
has `throws = false` and never gives `error`. -/
structure Function (V E R : Type) where
  throws : Bool
  run : List V → Eff (Except E R)

/-- `LiftArgsError::to_internal_error`: rustcalls.rs:137-141. -/
def internalLiftError {E : Type} (name : String) (e : AnyErr E) : CallError :=
  .internal ("Failed to convert arg '" ++ name ++ "':\n" ++ e.text)

/-- `LowerReturn::lower_return`. `Result`: ffi_converter_impls.rs:576-581; other types:
`Ok(lower(v))`, ffi_converter_traits.rs `derive_ffi_traits!`. -/
def lowerReturn {E R W : Type} (lower : R → Eff W) (lowerError : E → Eff Bytes) :
    Except E R → Eff (Except CallError W)
  | .ok r => (lower r).bind fun w => .ret (.ok w)
  | .error e => (lowerError e).bind fun b => .ret (.error (.error b))

/-- `LowerReturn::handle_failed_lift`. `Result`: ffi_converter_impls.rs:583-592 (on every target
but single-threaded wasm); other types: ffi_converter_traits.rs:309-311. -/
def handleFailedLift {E W : Type} (throws : Bool) (lowerError : E → Eff Bytes) (name : String)
    (e : AnyErr E) : Eff (Except CallError W) :=
  match throws, e.user with
  | true, some u => (lowerError u).bind fun b => .ret (.error (.error b))
  | _, _ => .ret (.error (internalLiftError name e))

/-- The closure given to `rust_call` in the scaffolding function of a synchronous function:
uniffi_macros/src/export/scaffolding.rs:263-281. -/
def scaffoldingBody {V E R W : Type} (lower : R → Eff W) (lowerError : E → Eff Bytes)
    (f : Function V E R) (args : List (Arg V E)) :
    List (Event V) × Eff (Except CallError W) :=
  let (log, lifted) := liftArgs args
  match lifted with
  | .ret (.ok vs) => (log ++ [.call vs], (f.run vs).bind (lowerReturn lower lowerError))
  | .ret (.error (name, e)) => (log, handleFailedLift f.throws lowerError name e)
  | .panic p => (log, .panic p)
  | .ub => (log, .ub)

/-- The scaffolding function of a synchronous function: scaffolding.rs:252-285. -/
def scaffolding {V E R W : Type} (lower : R → Eff W) (lowerError : E → Eff Bytes) (dflt : W)
    (f : Function V E R) (args : List (Arg V E)) (st : Status) :
    List (Event V) × Eff (W × Status) :=
  let (log, body) := scaffoldingBody lower lowerError f args
  (log, rustCall lowerString dflt st body)

/-! ### Values crossing the FFI -/

/-- A value of a C type: a number, a floating point number (as bits), a `u64` handle, a
`RustBuffer` (its contents), or nothing. -/
inductive Ffi where
  | int (z : Int)
  | float (bits : Nat)
  | handle (h : Nat)
  | buf (bs : Bytes)
  | unit
  deriving DecidableEq, Repr

/-- `Lower::lower`. Numbers: ffi_converter_impls.rs:48-50; bool: 88-90; string: 126-128; boxes:
306-308; handles: uniffi_macros/src/object.rs:194-198; custom types:
uniffi_macros/src/custom.rs (lower, then the builtin's lower); everything else:
`lower_into_rust_buffer`, ffi_converter_traits.rs:265-269. The fuel bounds the depth of boxes and
custom types. -/
def lower (env : Env) : Nat → Ty → Val → Eff Ffi
  | 0, _, _ => .panic .other
  | fuel + 1, t, v =>
    match t, v with
    | .int _, .int z => .ret (.int z)
    | .f32, .float b => .ret (.float b)
    | .f64, .float b => .ret (.float b)
    | .bool, .bool b => .ret (.int (if b then 1 else 0))
    | .string, .str s => .ret (.buf (utf8 s))
    | .handle, .handle h => .ret (.handle h)
    | .box t, .box v => lower env fuel t v
    | .named n, .custom id low =>
      match env n with
      | some (.custom t lo _) => if lo id = low then lower env fuel t low else .panic .other
      | _ => .panic .other
    | t, v =>
      match write env t v with
      | some bs => .ret (.buf bs)
      | none => .panic .other

/-- The outcome of a buffer read as an outcome of running code. The value read and whether the
buffer was used up. Out of stack is undefined behaviour. -/
def ofRes {α : Type} : Res α → Eff (Except ReadErr α)
  | .ok v _ => .ret (.ok v)
  | .err e => .ret (.error e)
  | .panic => .panic .other
  | .deep => .ub

/-- `Lift::try_lift`. Numbers: ffi_converter_impls.rs:52-54; bool: 92-98; string
(`from_utf8_unchecked`): 132-141; boxes: 322-324; handles: uniffi_macros/src/object.rs:200-203;
custom types: uniffi_macros/src/custom.rs (the builtin's try_lift, then the user's); everything
else: `try_lift_from_rust_buffer`, ffi_converter_traits.rs:230-238. A C value of the wrong kind
cannot be passed; the model calls it undefined behaviour. -/
def tryLift (env : Env) : Nat → Ty → Ffi → Eff (Except ReadErr Val)
  | 0, _, _ => .ub
  | fuel + 1, t, x =>
    match t, x with
    | .int _, .int z => .ret (.ok (.int z))
    | .f32, .float b => .ret (.ok (.float b))
    | .f64, .float b => .ret (.ok (.float b))
    | .bool, .int z =>
      if z = 0 then .ret (.ok (.bool false))
      else if z = 1 then .ret (.ok (.bool true))
      else .ret (.error .badBool)
    | .string, .buf bs =>
      match fromUtf8 bs with
      | some s => .ret (.ok (.str s))
      | none => .ub
    | .handle, .handle h => .ret (.ok (.handle h))
    | .box t, x => (tryLift env fuel t x).bind fun
      | .ok v => .ret (.ok (.box v))
      | .error e => .ret (.error e)
    | .named n, x =>
      match env n with
      | some (.custom t _ li) => (tryLift env fuel t x).bind fun
        | .ok v => match li v with
          | some id => .ret (.ok (.custom id v))
          | none => .ret (.error .badCustom)
        | .error e => .ret (.error e)
      | some _ => match x with
        | .buf bs => ofRes (liftBuffer env (fuel + 1) (.named n) bs)
        | _ => .ub
      | none => .ub
    | t, .buf bs => ofRes (liftBuffer env (fuel + 1) t bs)
    | _, _ => .ub

/-! ### The foreign side of a call

Paths are relative to uniffi_bindgen/src/bindings. -/

/-- The generated `lower` of an argument. `none` is an exception raised before the call. Numbers
are range checked (python/templates/Helpers.py and builtins, ruby/templates/Helpers.rb
uniffi_in_range; in Kotlin and Swift the type system does it); booleans become 0 or 1
(kotlin/templates/BooleanHelper.kt, swift/templates/BooleanHelper.swift); strings become a buffer
with their UTF-8 bytes (kotlin/templates/StringHelper.kt:20-26,
swift/templates/StringHelper.swift:20-24); everything else goes through `write`. -/
def flower (L : Lang) (env : Env) : Nat → Ty → Val → Option Ffi
  | 0, _, _ => none
  | fuel + 1, t, v =>
    match t with
    | .int i => match v with
      | .int z => if i.InRange z then some (.int z) else none
      | _ => none
    | .f32 => match v with | .float b => some (.float b) | _ => none
    | .f64 => match v with | .float b => some (.float b) | _ => none
    | .bool => match v with | .bool b => some (.int (if b then 1 else 0)) | _ => none
    | .string => match v with | .str s => some (.buf (utf8 s)) | _ => none
    | .handle => match v with | .handle h => some (.handle h) | _ => none
    | .box t => flower L env fuel t v
    | .named n => match env n with
      | some (.custom t _ _) => flower L env fuel t v
      | _ => (fwrite L env (fuel + 1) (.named n) v).map .buf
    | t => (fwrite L env (fuel + 1) t v).map .buf

/-- The generated `lift` of a returned value; `none` is an exception. Booleans: not zero;
strings: decoded from the whole buffer. -/
def fliftFfi (L : Lang) (env : Env) : Nat → Ty → Ffi → Option Val
  | 0, _, _ => none
  | fuel + 1, t, x =>
    match t with
    | .int _ => match x with | .int z => some (.int z) | _ => none
    | .f32 => match x with | .float b => some (.float b) | _ => none
    | .f64 => match x with | .float b => some (.float b) | _ => none
    | .bool => match x with | .int z => some (.bool (z ≠ 0)) | _ => none
    | .string => match x with | .buf bs => (fromUtf8 bs).map .str | _ => none
    | .handle => match x with | .handle h => some (.handle h) | _ => none
    | .box t => fliftFfi L env fuel t x
    | .named n => match env n with
      | some (.custom t _ _) => fliftFfi L env fuel t x
      | _ => match x with
        | .buf bs => match flift L env (fuel + 1) (.named n) bs with
          | .ok v _ => some v
          | _ => none
        | _ => none
    | t => match x with
      | .buf bs => match flift L env (fuel + 1) t bs with
        | .ok v _ => some v
        | _ => none
      | _ => none

/-- What the caller in the foreign language observes. -/
inductive Seen where
  /-- the call returned this value -/
  | value (v : Val)
  /-- the call returned nothing -/
  | void
  /-- the declared exception was thrown -/
  | threw (e : Val)
  /-- the internal error of the bindings was thrown, with this message -/
  | internal (msg : String)
  /-- an argument or the result could not be converted -/
  | badValue
  /-- the process stops -/
  | fatal
  deriving DecidableEq, Repr

/-- The messages the bindings make up themselves. -/
structure Messages where
  noHandler : String
  noMessage : String
  badCode : String
  /-- Swift stops the process on CALL_CANCELLED. -/
  cancelledFatal : Bool

/-- python/templates/Helpers.py:56, 69, 72. -/
def pythonMessages : Messages where
  noHandler := "_uniffi_rust_call_with_error: CALL_ERROR, but error_ffi_converter is None"
  noMessage := "Unknown rust panic"
  badCode := "Invalid _UniffiRustCallStatus code: "
  cancelledFatal := false
/-- kotlin/templates/Helpers.kt:73, 76, 88. -/
def kotlinMessages : Messages where
  noHandler := "Unexpected CALL_ERROR"
  noMessage := "Rust panic"
  badCode := "Unknown rust call status: "
  cancelledFatal := false
/-- swift/templates/Helpers.swift:21-22, 101-105. -/
def swiftMessages : Messages where
  noHandler := "CALL_ERROR but no errorClass specified"
  noMessage := "Rust panic"
  badCode := "Unexpected RustCallStatus code"
  cancelledFatal := true
/-- ruby/templates/ErrorTemplate.rb:136, 146, 149. -/
def rubyMessages : Messages where
  noHandler := "CALL_ERROR with no error_module set"
  noMessage := "Rust panic"
  badCode := "Unknown call status: "
  cancelledFatal := false

/-- The check after a call: python/templates/Helpers.py:51-73, kotlin/templates/Helpers.kt:61-78,
swift/templates/Helpers.swift:77-110, ruby/templates/ErrorTemplate.rb:130-151. `throws` is the
declared error type, `code` the number the status holds, `k` what happens on success. Error values
are lifted from a buffer. -/
def checkStatus (L : Lang) (m : Messages) (env : Env) (fuel : Nat) (throws : Option Ty)
    (code : Int) (buf : Bytes) (k : Seen) : Seen :=
  if code = 0 then k
  else if code = 1 then
    match throws with
    | none => .internal m.noHandler
    | some t => match flift L env fuel t buf with
      | .ok e _ => .threw e
      | _ => .badValue
  else if code = 2 then
    if buf.length > 0 then
      match fromUtf8 buf with
      | some s => .internal s
      | none => .badValue
    else .internal m.noMessage
  else if code = 3 ∧ m.cancelledFatal then .fatal
  else .internal m.badCode

/-- The signature of an exported function: argument names and types, return type, error type. -/
structure Sig where
  args : List (String × Ty)
  ret : Option Ty
  throws : Option Ty

/-- Rust's side of an argument: the anyhow error carries the user's error when the failing
`try_lift` of a custom type raised the function's own error type; `user` says which errors do. -/
def rustArg (env : Env) (fuel : Nat) (user : ReadErr → Option Val) (text : ReadErr → String)
    (a : String × Ty) (x : Ffi) : Arg Val Val where
  name := a.1
  lift := (tryLift env fuel a.2 x).bind fun
    | .ok v => .ret (.ok v)
    | .error e => .ret (.error { user := user e, text := text e })

/-- `LowerReturn` of the declared return type; `()` lowers to nothing
(ffi_converter_impls.rs:543-549). -/
def lowerRet (env : Env) (fuel : Nat) (ret : Option Ty) (v : Val) : Eff Ffi :=
  match ret with
  | some t => lower env fuel t v
  | none => .ret .unit

/-- `LowerError`: `lower_into_rust_buffer`. -/
def lowerErr (env : Env) (throws : Option Ty) (e : Val) : Eff Bytes :=
  match throws with
  | none => .panic .other
  | some t => match write env t e with
    | some bs => .ret bs
    | none => .panic .other

/-- `FfiDefault` of a return type: zero, a null buffer, nothing. ffidefault.rs. -/
def ffiDefault (env : Env) : Nat → Option Ty → Ffi
  | _, none => .unit
  | 0, _ => .unit
  | fuel + 1, some t => match t with
    | .int _ | .bool => .int 0
    | .f32 | .f64 => .float 0
    | .handle => .handle 0
    | .box t => ffiDefault env fuel (some t)
    | .named n => match env n with
      | some (.custom t _ _) => ffiDefault env fuel (some t)
      | _ => .buf []
    | _ => .buf []

/-- All arguments lowered, left to right: python/templates/CallableBody.py:11-23. -/
def flowerAll (L : Lang) (env : Env) (fuel : Nat) : List (String × Ty) → List Val → Option (List Ffi)
  | [], [] => some []
  | a :: as, v :: vs => (flower L env fuel a.2 v).bind fun x =>
      (flowerAll L env fuel as vs).map (x :: ·)
  | _, _ => none

/-- A complete call from a foreign language: lower the arguments, call with a fresh status, check
the status, lift the result. python/templates/CallableBody.py:11-60 with Helpers.py:35-49,
kotlin/templates/macros.kt to_ffi_call with Helpers.kt:52-57, swift/templates/macros.swift with
Helpers.swift:65-75, ruby/templates/macros.rb with ErrorTemplate.rb:113-130. -/
def callFrom (L : Lang) (m : Messages) (env : Env) (fuel : Nat) (user : ReadErr → Option Val)
    (text : ReadErr → String) (sig : Sig) (run : List Val → Eff (Except Val Val))
    (vs : List Val) : List (Event Val) × Seen :=
  match flowerAll L env fuel sig.args vs with
  | none => ([], .badValue)
  | some xs =>
    let (log, r) := scaffolding (lowerRet env fuel sig.ret) (lowerErr env sig.throws)
      (ffiDefault env fuel sig.ret) { throws := sig.throws.isSome, run := run }
      (List.zipWith (rustArg env fuel user text) sig.args xs) {}
    match r with
    | .ret (x, st) => (log, checkStatus L m env fuel sig.throws st.code.toInt st.buf
        (match sig.ret with
          | none => .void
          | some t => match fliftFfi L env fuel t x with
            | some v => .value v
            | none => .badValue))
    | .panic _ => (log, .fatal)
    | .ub => (log, .fatal)

/-! ### Rust calling a foreign implementation -/

/-- `UnexpectedUniFFICallbackError { reason }`: uniffi_core/src/ffi/callbackinterface.rs. -/
structure Unexpected where
  reason : String
  deriving DecidableEq, Repr

/-- How a Rust method of a foreign-implemented trait returns: its `LiftReturn` implementation.
`liftOk` is `try_lift_successful_return`; `throws` says the method returns `Result`, with
`liftErr = try_lift_from_rust_buffer` for the error type (the text is `{anyhow_error}`) and
`convert = try_convert_unexpected_callback_error`. -/
structure LiftRet (X E R : Type) where
  liftOk : X → Eff (Except String R)
  throws : Bool
  liftErr : Bytes → Eff (Except String E)
  convert : Unexpected → Eff (Except String E)

/-- `handle_callback_unexpected_error`: `Result`, ffi_converter_impls.rs:631-633; otherwise
ffi_converter_traits.rs:393-395. The text follows callbackinterface.rs:125-133, except that the
escaping `{:?}` does inside the quotes is left out. -/
def handleUnexpected {X E R : Type} (l : LiftRet X E R) (e : Unexpected) : Eff (Except E R) :=
  if l.throws then
    (l.convert e).bind fun
      | .ok u => .ret (.error u)
      | .error msg => .panic (.string msg)
  else .panic (.string ("Callback interface failure: " ++ "UnexpectedUniFFICallbackError(reason: \""
    ++ e.reason ++ "\")"))

/-- `lift_error`: `Result`, ffi_converter_impls.rs:620-629; otherwise
ffi_converter_traits.rs:380-382. -/
def liftError {X E R : Type} (l : LiftRet X E R) (buf : Bytes) : Eff (Except E R) :=
  if l.throws then
    (l.liftErr buf).bind fun
      | .ok e => .ret (.error e)
      | .error msg => handleUnexpected l ⟨"Error lifting from rust buffer: " ++ msg⟩
  else .panic (.str "Callback interface method returned unexpected error")

/-- `lift_foreign_return`: ffi_converter_traits.rs:357-374. `String::try_lift` does not check its
input (see `tryLift`). -/
def liftForeignReturn {X E R : Type} (l : LiftRet X E R) (x : X) (code : Code) (buf : Bytes) :
    Eff (Except E R) :=
  match code with
  | .success => (l.liftOk x).bind fun
      | .ok r => .ret (.ok r)
      | .error msg => handleUnexpected l ⟨msg⟩
  | .error => liftError l buf
  | _ => match fromUtf8 buf with
    | some s => handleUnexpected l ⟨s⟩
    | none => .ub

/-- The `LiftReturn` of a method with return type `ret` and error type `throws`: `()` lifts from
nothing (ffi_converter_impls.rs:551-557), other types through `try_lift`, errors through
`try_lift_from_rust_buffer`. `convert` is the library author's
`From<UnexpectedUniFFICallbackError>`, if there is one (callbackinterface.rs:137-230). -/
def liftRetOf (env : Env) (fuel : Nat) (ret throws : Option Ty) (text : ReadErr → String)
    (convert : Option (Unexpected → Val)) : LiftRet Ffi Val (Option Val) where
  liftOk x := match ret with
    | none => .ret (.ok none)
    | some t => (tryLift env fuel t x).bind fun
      | .ok v => .ret (.ok (some v))
      | .error e => .ret (.error (text e))
  throws := throws.isSome
  liftErr buf := match throws with
    | none => .panic .other
    | some t => (ofRes (liftBuffer env fuel t buf)).bind fun
      | .ok v => .ret (.ok v)
      | .error e => .ret (.error (text e))
  convert e := match convert with
    | some f => .ret (.ok (f e))
    | none => .ret (.error ("UnexpectedUniFFICallbackError(reason: \"" ++ e.reason ++ "\")"))

/-- What the foreign implementation of a method does. -/
inductive Impl where
  /-- returns this value -/
  | returns (v : Val)
  /-- throws the declared exception -/
  | throws (e : Val)
  /-- throws something else, described by this text -/
  | other (msg : String)

/-- The generated wrapper around a foreign implementation: python/templates/Helpers.py:75-89,
kotlin/templates/Helpers.kt:95-126, swift/templates/Helpers.swift:112-140,
ruby/templates/Helpers.rb:32-54. Gives the status code, the error buffer and what was written as
return value, or `none` if an exception leaves the wrapper. `declared` is the error type the
method may throw. A value that cannot be lowered raises inside the wrapper (in Python, Kotlin and
Ruby; `badText` is the text of that exception). A declared error that cannot be lowered: Python's
outer `try` turns it into an unexpected error, in the other languages the exception leaves. -/
def implCall (L : Lang) (env : Env) (fuel : Nat) (ret declared : Option Ty) (badText : String)
    (catchesLowerError : Bool) (dflt : Ffi) (i : Impl) : Option (Code × Bytes × Ffi) :=
  match i with
  | .returns v => match ret with
    | none => some (.success, [], .unit)
    | some t => match flower L env fuel t v with
      | some x => some (.success, [], x)
      | none => some (.unexpected, utf8 badText, dflt)
  | .throws e => match declared with
    | none => some (.unexpected, utf8 badText, dflt)
    | some t => match fwrite L env fuel t e with
      | some b => some (.error, b, dflt)
      | none => if catchesLowerError then some (.unexpected, utf8 badText, dflt) else none
  | .other msg => some (.unexpected, utf8 msg, dflt)

/-- A complete call from Rust to a foreign implementation: the generated Rust method
(uniffi_macros/src/export/callback_interface.rs:244-253) passes a fresh status and lifts what
comes back. An exception that leaves the wrapper is undefined behaviour here. -/
def callInto (L : Lang) (env : Env) (fuel : Nat) (ret throws : Option Ty) (text : ReadErr → String)
    (convert : Option (Unexpected → Val)) (badText : String) (catchesLowerError : Bool)
    (dflt : Ffi) (i : Impl) : Eff (Except Val (Option Val)) :=
  match implCall L env fuel ret throws badText catchesLowerError dflt i with
  | some (code, buf, x) => liftForeignReturn (liftRetOf env fuel ret throws text convert) x code buf
  | none => .ub

end Verif.Call
