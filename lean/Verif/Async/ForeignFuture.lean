import Verif.Call.Model
/-
Rust awaiting an asynchronous foreign method: the oneshot channel, the future made by
`foreign_async_call`, and the wrappers that run the foreign method.
uniffi_core/src/oneshot.rs, uniffi_core/src/ffi/foreignfuture.rs.

The Rust future is polled and dropped by one owner at a time (`&mut`). The foreign side owns the
sender until it calls the completion callback, once (foreignfuture.rs:13-15; the wrappers at the end
of this file). The two sides run at the same time: one step is one region protected by the mutex,
one reference count operation, or one call of foreign code.
-/
namespace Verif.ForeignFuture
open Verif

variable {T U : Type}

/-- What happens, oldest first in a log. -/
inductive Ev (T U : Type) where
  /-- The Rust future is polled, for the `n`-th time. -/
  | polled (n : Nat)
  /-- The foreign method is called. -/
  | called
  /-- Poll `n` returned `Pending`. -/
  | pending (n : Nat)
  /-- Poll `n` returned `Ready`. -/
  | ready (n : Nat) (u : U)
  /-- The foreign side calls the completion callback. -/
  | completed (v : T)
  /-- The waker given to poll `n` is woken. -/
  | woke (n : Nat)
  /-- The Rust future is dropped. -/
  | dropped
  /-- The foreign "dropped" callback is called. -/
  | droppedCallback
  /-- The channel is released. -/
  | released
  deriving DecidableEq, Repr

/-- Where the Rust future is. -/
inductive RustPc (T : Type) where
  /-- Not polled yet. -/
  | fresh
  /-- In poll `n`: about to make the channel and call the method (foreignfuture.rs:73-87). -/
  | call (n : Nat)
  /-- In poll `n`: about to look into the channel (oneshot.rs:75-81). -/
  | recv (n : Nat)
  /-- Poll `n` returned `Pending`. -/
  | waiting (n : Nat)
  /-- In poll `n`: has the value, about to drop the receiver (foreignfuture.rs:89). -/
  | got (n : Nat) (v : T)
  /-- In poll `n`: about to lift the value, drop the callback struct and return
  (foreignfuture.rs:90-91). -/
  | finish (n : Nat) (v : T)
  /-- `Ready` was returned. -/
  | done
  /-- Dropped while waiting: about to drop the receiver, then the callback struct. -/
  | dropRecv
  | dropCallback
  /-- Dropped. -/
  | gone
  deriving DecidableEq, Repr

/-- Where the sender is. -/
inductive SendPc (T : Type) where
  /-- The channel does not exist yet. -/
  | notMade
  /-- The foreign side holds it. -/
  | held
  /-- In send: about to store the value (oneshot.rs:39-43). -/
  | store (v : T)
  /-- In send: about to wake (oneshot.rs:48-50). -/
  | wake (w : Option Nat)
  /-- In send: about to drop the sender (oneshot.rs:51). -/
  | drop
  | used
  deriving DecidableEq, Repr

/-- `OneshotInner` (oneshot.rs:23-26) with the strong count of its `Arc`, and where both sides
are. A waker is identified by the number of the poll it was given to. `ub` records an access to the
channel after its release. -/
structure St (T U : Type) where
  rust : RustPc T := .fresh
  send : SendPc T := .notMade
  value : Option T := none
  waker : Option Nat := none
  count : Nat := 0
  log : List (Ev T U) := []
  ub : Bool := false
  deriving DecidableEq, Repr

def St.add (s : St T U) (e : Ev T U) : St T U := { s with log := s.log ++ [e] }

/-- Every access to the channel: undefined behaviour after release. -/
def St.touch (s : St T U) : St T U := { s with ub := s.ub || s.count == 0 }

/-- Drop one `Arc` of the channel; the last one drops what is in it. -/
def St.dropArc (s : St T U) : St T U :=
  if s.count = 1 then
    ({ s.touch with count := 0, value := none, waker := none }).add .released
  else { s.touch with count := s.count - 1 }

/-- What can happen next. -/
inductive Act (T : Type) where
  /-- The owner of the Rust future polls it. -/
  | poll
  /-- The owner of the Rust future drops it. -/
  | drop
  /-- The foreign side calls `foreign_future_complete` (foreignfuture.rs:93-99). -/
  | complete (v : T)
  /-- A poll or drop in progress goes on. -/
  | rust
  /-- A send in progress goes on. -/
  | send
  deriving DecidableEq, Repr

/-- One step. `lift` is `T::lift_foreign_return` on what the foreign side reported. `none`: not
possible now.

* `foreign_async_call`: foreignfuture.rs:67-91; `channel`: oneshot.rs:28-34.
* `Receiver::poll`: oneshot.rs:74-83; `Sender::send`: oneshot.rs:38-51.
* Dropping the callback struct calls the callback: foreignfuture.rs:59-63. -/
def step (lift : T → U) (s : St T U) : Act T → Option (St T U)
  | .poll => match s.rust with
    | .fresh => some ({ s with rust := .call 0 }.add (.polled 0))
    | .waiting n => some ({ s with rust := .recv (n + 1) }.add (.polled (n + 1)))
    | _ => none
  | .drop => match s.rust with
    | .fresh => some ({ s with rust := .gone }.add .dropped)
    | .waiting _ => some ({ s with rust := .dropRecv }.add .dropped)
    | .done => some ({ s with rust := .gone }.add .dropped)
    | _ => none
  | .complete v => match s.send with
    | .held => some ({ s with send := .store v }.add (.completed v))
    | _ => none
  | .rust => match s.rust with
    | .call n => some ({ s with rust := .recv n, send := .held, value := none, waker := none, count := 2 }.add
        .called)
    | .recv n => match s.value with
      | some v => some { s.touch with value := none, rust := .got n v }
      | none => some ({ s.touch with waker := some n, rust := .waiting n }.add (.pending n))
    | .got n v => some { s.dropArc with rust := .finish n v }
    | .finish n v => some (({ s with rust := .done }.add .droppedCallback).add (.ready n (lift v)))
    | .dropRecv => some { s.dropArc with rust := .dropCallback }
    | .dropCallback => some ({ s with rust := .gone }.add .droppedCallback)
    | _ => none
  | .send => match s.send with
    | .store v => some { s.touch with value := some v, waker := none, send := .wake s.waker }
    | .wake (some n) => some ({ s with send := .drop }.add (.woke n))
    | .wake none => some { s with send := .drop }
    | .drop => some { s.dropArc with send := .used }
    | _ => none

/-- Any sequence of steps. -/
def run (lift : T → U) (s : St T U) : List (Act T) → Option (St T U)
  | [] => some s
  | a :: as => (step lift s a).bind fun s => run lift s as

/-! ### The foreign side

What the wrapper around an asynchronous foreign method reports. Paths are relative to
uniffi_bindgen/src/bindings. -/

/-- How the foreign method ended. -/
inductive Ended (V E : Type) where
  | returned (v : V)
  /-- the declared exception -/
  | threw (e : E)
  /-- any other exception, with this text -/
  | other (msg : String)
  /-- the task was cancelled -/
  | cancelled
  deriving DecidableEq, Repr

/-- What is passed to the completion callback: return value and status. -/
structure Report (X : Type) where
  x : X
  code : Call.Code
  buf : Bytes
  deriving DecidableEq, Repr

section
variable {V E X : Type} (dflt : X) (lower : V → Option X) (lowerError : E → Option Bytes)
  (text : String)

/-- `handle_success` / `handleSuccess` with the value already lowered. -/
def success (x : X) : Report X := ⟨x, .success, []⟩
/-- `handle_error` / `handleError`. -/
def failure (code : Call.Code) (buf : Bytes) : Report X := ⟨dflt, code, buf⟩

/-- The calls of the completion callback made by the Python wrapper, in order. Without a declared
error: python/templates/Async.py:71-91; with one: 97-117; `handle_success` lowers the value
(CallbackInterfaceImpl.py:55-64). An exception that leaves the coroutine is only seen by the task.
`CancelledError` is not an `Exception`. `text` is the text of an exception raised by lowering. -/
def pythonReports (throws : Bool) : Ended V E → List (Report X)
  | .returned v => match lower v with
    | some x => [success x]
    | none => if throws then [failure dflt .unexpected (Wire.utf8 text)] else []
  | .threw e =>
    if throws then
      match lowerError e with
      | some b => [failure dflt .error b]
      | none => [failure dflt .unexpected (Wire.utf8 text)]
    else [failure dflt .unexpected (Wire.utf8 text)]
  | .other msg => [failure dflt .unexpected (Wire.utf8 msg)]
  | .cancelled => []

/-- The Kotlin wrapper: kotlin/templates/Async.kt:43-76 and 81-114, with
CallbackInterfaceImpl.kt:48-68. `CancellationException` is a `kotlin.Exception`. -/
def kotlinReports (throws : Bool) : Ended V E → List (Report X)
  | .returned v => match lower v with
    | some x => [success x]
    | none => []
  | .threw e =>
    if throws then
      match lowerError e with
      | some b => [failure dflt .error b]
      | none => []
    else [failure dflt .unexpected (Wire.utf8 text)]
  | .other msg => [failure dflt .unexpected (Wire.utf8 msg)]
  | .cancelled => [failure dflt .unexpected (Wire.utf8 text)]

/-- The Swift wrapper: swift/templates/Async.swift:51-74 and 82-103, with
CallbackInterfaceImpl.swift:80-101. Lowering does not throw in Swift: a value that cannot be lowered
stops the process, reported here as nothing. -/
def swiftReports (throws : Bool) : Ended V E → List (Report X)
  | .returned v => match lower v with
    | some x => [success x]
    | none => []
  | .threw e =>
    if throws then
      match lowerError e with
      | some b => [failure dflt .error b]
      | none => []
    else [failure dflt .unexpected (Wire.utf8 text)]
  | .other msg => [failure dflt .unexpected (Wire.utf8 msg)]
  | .cancelled => [failure dflt .unexpected (Wire.utf8 text)]

/-- The Ruby wrapper: ruby/templates/Async.rb:136-175 with macros.rb:181-216. `claimed` says that
the dropped callback claimed the flag first (Async.rb:128-131), after which nothing is reported.
A failing lowering is caught by the outer rescue (165-170). -/
def rubyReports (throws claimed : Bool) : Ended V E → List (Report X)
  | .returned v =>
    if claimed then [] else
    match lower v with
    | some x => [success x]
    | none => [failure dflt .unexpected (Wire.utf8 text)]
  | .threw e =>
    if claimed then [] else
    if throws then
      match lowerError e with
      | some b => [failure dflt .error b]
      | none => [failure dflt .unexpected (Wire.utf8 text)]
    else [failure dflt .unexpected (Wire.utf8 text)]
  | .other msg => if claimed then [] else [failure dflt .unexpected (Wire.utf8 msg)]
  | .cancelled => []

end

end Verif.ForeignFuture
