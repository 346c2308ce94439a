import Verif.Jni.Callback
/-
Calling async methods that Kotlin implements from Rust, through JNI.
uniffi-bindgen-kotlin-jni: scaffolding/templates/callback_interface.rs:137-174, async.rs:192-280;
bindings/templates/shared/CallbackInterfaceFfi.kt:71-144, CallbackInterfaces.kt;
uniffi_core/src/oneshot.rs; runtime/src/calls.rs.

Any number of calls run at the same time. One step is one region protected by the mutex of a channel,
one operation on a reference count, one call of user code, or one access to the map of objects. The
details of the channel are in C21 (Async/ForeignFuture.lean); here it is enough that storing, looking
and waking are separate.
-/
namespace Verif.JniCallback

variable {K E L R F : Type}

/-- What goes through the channel: `uniffi::Result` of the result of the method. -/
abbrev Sent (R F : Type) := Except String (Except F R)

/-- Where the Rust future is. -/
inductive RPc (R F : Type) where
  /-- In poll `n`, about to look into the channel (`oneshot.rs:75-81`). -/
  | recv (n : Nat)
  /-- Poll `n` returned `Pending`. -/
  | waiting (n : Nat)
  /-- It is ready. -/
  | got (v : Sent R F)
  /-- It was ready at once, as the coroutine was not launched. -/
  | failed (msg : String)
  | panicked (msg : String)
  | dropped

/-- Where the coroutine is. `last`: it is in the `catch` block. -/
inductive CPc (R F : Type) where
  /-- It does not exist. -/
  | none
  /-- Launched, it waits for a thread. -/
  | queued
  /-- In the method of the user. -/
  | running
  /-- In one of the three native functions, with the sender and the value (`oneshot.rs:39-43`). -/
  | store (v : Sent R F) (last : Bool)
  /-- About to wake (`oneshot.rs:48-50`). -/
  | wake (w : Option Nat) (last : Bool)
  /-- About to drop the sender (`oneshot.rs:51`). -/
  | drop (last : Bool)
  /-- About to return to Kotlin. -/
  | back (last : Bool)
  | ended

/-- What the coroutine did (for statements only). -/
inductive How (K E : Type) where
  /-- The object was not in the map. -/
  | noObject
  /-- An argument could not be lifted. -/
  | noArgs (x : Exc)
  /-- The method was called and ended. -/
  | ends (e : Ends K E)
  deriving DecidableEq, Repr

/-- An async method. -/
structure AMethod (K E L R F : Type) where
  codec : Codec K E L R F
  /-- It has no return type. -/
  void : Bool
  /-- It has an error type. -/
  throws : Bool
  /-- See `Call.hasFrom`. -/
  hasFrom : Bool

/-- A call: its channel, and where both sides are. -/
structure ACall (K E L R F : Type) where
  m : AMethod K E L R F
  /-- The object. -/
  h : Nat
  rust : RPc R F
  co : CPc R F
  /-- `OneshotInner`, `oneshot.rs:23-26`. -/
  value : Option (Sent R F) := .none
  waker : Option Nat := .none
  /-- The strong count of the channel. -/
  count : Nat
  /-- Arguments that were lowered and not lifted yet are held by nobody but the coroutine. -/
  args : Bool
  /-- The rest is for statements only: which polls were woken, how often the method was called,
  something was sent and the channel was released, and how the coroutine ended. -/
  woken : List Nat := []
  runs : Nat := 0
  sends : Nat := 0
  released : Nat := 0
  how : Option (How K E) := .none
  /-- The sender was used after it was consumed. -/
  ub : Bool := false

/-- Drop one `Arc` of the channel. -/
def ACall.dropArc (c : ACall K E L R F) : ACall K E L R F :=
  if c.count = 1 then { c with count := 0, released := c.released + 1, value := .none, waker := .none }
  else { c with count := c.count - 1 }

/-- `Sender::from_raw` (`oneshot.rs:64-66`), then `send`. -/
def ACall.complete (c : ACall K E L R F) (v : Sent R F) (last : Bool) : ACall K E L R F :=
  { c with co := .store v last, sends := c.sends + 1, ub := c.ub || c.sends != 0 }

/-- `completeKotlinFutureUnexpectedErr`, `async.rs:264-279`, called from `CallbackInterfaceFfi.kt:134-136`. -/
def ACall.unexpected (c : ACall K E L R F) : ACall K E L R F := c.complete (.error "Unexpected callback error") true

/-- `rust_call` (`calls.rs:15-38`) around a lift function, then `map_err`. -/
def rustCall {α : Type} (x : Conv α) : Except String α :=
  match x with
  | .ok a => .ok a
  | .err m => .error m
  | .panic m => .error ("Rust panic: " ++ m)

/-- The end of the method, `CallbackInterfaceFfi.kt:97-136`, and the native functions it calls,
`async.rs:194-231` and `233-261`. The kind of the return type makes no difference. -/
def ACall.finish (c : ACall K E L R F) : Ends K E → ACall K E L R F
  | .returns k =>
    if c.m.void then c.complete (.ok (.ok c.m.codec.unit)) false
    else match c.m.codec.lowerRet k with
      | .error _ => c.unexpected
      | .ok l => c.complete ((rustCall (c.m.codec.liftRet l)).map .ok) false
  | .declared e =>
    if c.m.throws then
      match c.m.codec.lowerErr e with
      | .error _ => c.unexpected
      | .ok l => c.complete ((rustCall (c.m.codec.liftErr l)).map .error) false
    else c.unexpected
  | .other _ => c.unexpected

/-- What can happen to a call. -/
inductive CAct (K E : Type) where
  /-- The Rust future is polled. -/
  | poll
  /-- A poll goes on. -/
  | recv
  /-- The Rust future is dropped. -/
  | dropFuture
  /-- The coroutine begins: it looks for the object and lifts the arguments. -/
  | begin (lift : Except Exc Unit)
  /-- The method ends. -/
  | finish (e : Ends K E)
  /-- A native function called by the coroutine goes on. `pending`: whether there is a pending
  exception; this matters when it returns. -/
  | go (pending : Bool)

/-- One step of a call. `live`: the object is in the map. -/
def ACall.step (c : ACall K E L R F) (live : Bool) : CAct K E → Option (ACall K E L R F)
  | .poll =>
    match c.rust with
    | .waiting n => some { c with rust := .recv (n + 1) }
    | _ => .none
  | .recv =>
    match c.rust with
    | .recv n =>
      match c.value with
      | some v => some ({ c with value := .none, rust := .got v }.dropArc)
      | .none => some { c with waker := some n, rust := .waiting n }
    | _ => .none
  | .dropFuture =>
    match c.rust with
    | .waiting _ => some ({ c with rust := .dropped }.dropArc)
    | _ => .none
  | .begin lift =>
    match c.co with
    | .queued =>
      -- `CallbackInterfaceFfi.kt:87-95`
      if live then
        match lift with
        | .ok () => some { c with co := .running, args := false, runs := c.runs + 1 }
        -- those lifted before are garbage like other Kotlin objects; that the one that failed is not
        -- cleaned up either is left out
        | .error x => some { c with args := false, how := some (.noArgs x) }.unexpected
      else some { c with how := some .noObject }.unexpected
    | _ => .none
  | .finish e =>
    match c.co with
    | .running => some ({ c with how := some (.ends e) }.finish e)
    | _ => .none
  | .go pending =>
    match c.co with
    | .store v last => some { c with value := some v, waker := .none, co := .wake c.waker last }
    | .wake w last => some { c with woken := w.toList ++ c.woken, co := .drop last }
    | .drop last => some ({ c with co := .back last }.dropArc)
    | .back last => some (if pending && !last then c.unexpected else { c with co := .ended })
    | _ => .none

/-- The objects in the map of Kotlin and the calls that were made. -/
structure Sys (K E L R F : Type) where
  next : Nat := 0
  live : List Nat := []
  calls : List (ACall K E L R F) := []

/-- The future may still use the object: it holds a reference to it. -/
def RPc.open : RPc R F → Bool
  | .recv _ => true
  | .waiting _ => true
  | _ => false

/-- What can happen. -/
inductive Act (K E L R F : Type) where
  /-- Kotlin passes an object to Rust: it is put into the map (`CallbackInterfaces.kt:20-24`). -/
  | make
  /-- Rust drops the last reference: it is removed from the map (`CallbackInterfaceFfi.kt:142-144`). -/
  | free (h : Nat)
  /-- Rust calls an async method of an object and polls the future: the arguments are lowered, and the
  coroutine is launched unless `launch` says that this throws (`callback_interface.rs:150-172`). -/
  | start (h : Nat) (m : AMethod K E L R F) (args : Conv Unit) (launch : Except Exc Unit)
  /-- Call `i` goes on. -/
  | call (i : Nat) (a : CAct K E)

/-- Starting a call. -/
def startCall (h : Nat) (m : AMethod K E L R F) (args : Conv Unit) (launch : Except Exc Unit) :
    ACall K E L R F :=
  match args with
  -- the sender and the receiver are dropped
  | .err t => { m, h, rust := .failed t, co := .none, count := 0, args := false, released := 1 }
  | .panic t => { m, h, rust := .panicked t, co := .none, count := 0, args := false, released := 1 }
  | .ok () =>
    match launch with
    -- the receiver is dropped, the sender was made a raw pointer (the text of the error names the JNI function)
    | .error x => { m, h, rust := .failed ("Exception calling the method: " ++ (getMessage x).1), co := .none, count := 1, args := true }
    | .ok () => { m, h, rust := .recv 0, co := .queued, count := 2, args := true }

/-- One step. -/
def Sys.step (s : Sys K E L R F) : Act K E L R F → Option (Sys K E L R F)
  | .make => some { s with next := s.next + 1, live := s.next :: s.live }
  | .free h =>
    if h ∈ s.live ∧ ∀ c ∈ s.calls, c.h = h → c.rust.open = false then some { s with live := s.live.filter (· ≠ h) }
    else none
  | .start h m args launch =>
    if h ∈ s.live then some { s with calls := s.calls ++ [startCall h m args launch] } else none
  | .call i a =>
    match s.calls[i]? with
    | some c => (c.step (s.live.contains c.h) a).map fun c' => { s with calls := s.calls.set i c' }
    | none => none

/-- No exception is pending when a native function returns to the coroutine. -/
def Act.clean : Act K E L R F → Bool
  | .call _ (.go p) => !p
  | _ => true

/-- What can be reached. -/
inductive Reach : Sys K E L R F → Prop
  | init : Reach {}
  | step (s s' : Sys K E L R F) (a : Act K E L R F) : Reach s → a.clean = true → s.step a = some s' → Reach s'

end Verif.JniCallback
