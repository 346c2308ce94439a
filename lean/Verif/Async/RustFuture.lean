import Verif.Call.Model
/-
Rust futures polled by foreign code: the scheduler, the wrapped future and its waker, as a
transition system in which any number of calls run at the same time.
uniffi_core/src/ffi/rustfuture/{scheduler.rs, future.rs, mod.rs}.

One step is one region protected by a mutex, one atomic reference count operation, or one call of
a continuation. Mutexes give mutual exclusion; a call of user code under the future mutex spans
several steps, in which every other call can take steps. A callback may call back into the
library: that is another call in the list of running calls. Mutex poisoning is not modelled
(panics of the user's future are caught inside the lock).
-/
namespace Verif.Async
open Verif

/-- `RustFuturePoll`: mod.rs:18-26. -/
inductive PollCode where
  | ready
  | wake
  deriving DecidableEq, Repr

/-! ### The scheduler -/

/-- `State`: scheduler.rs:28-39. A callback is identified by the number of the poll call that
brought it. -/
inductive Sched where
  | empty
  | waked
  | cancelled
  | set (cb : Nat)
  deriving DecidableEq, Repr

/-- `Scheduler::store`, the part under the lock: scheduler.rs:71-94. The second component is the
callback to invoke after unlocking. -/
def Sched.store (cb : Nat) : Sched → Sched × Option (Nat × PollCode)
  | .empty => (.set cb, none)
  | .set old => (.set cb, some (old, .wake))
  | .waked => (.empty, some (cb, .wake))
  | .cancelled => (.cancelled, some (cb, .ready))

/-- `Scheduler::wake`, the part under the lock: scheduler.rs:110-130. -/
def Sched.wake : Sched → Sched × Option (Nat × PollCode)
  | .set cb => (.empty, some (cb, .wake))
  | .empty => (.waked, none)
  | .waked => (.waked, none)
  | .cancelled => (.cancelled, none)

/-- `Scheduler::cancel`, the part under the lock: scheduler.rs:138-144. -/
def Sched.cancel : Sched → Sched × Option (Nat × PollCode)
  | .set cb => (.cancelled, some (cb, .ready))
  | _ => (.cancelled, none)

/-- `Scheduler::is_cancelled`: scheduler.rs:151-153. -/
def Sched.isCancelled (s : Sched) : Bool := s == .cancelled

/-! ### What happens, for the record -/

/-- Observable events, oldest first in a log. `R` is what the wrapped future finishes with. -/
inductive Ev (R : Type) where
  /-- The foreign side called poll with continuation `cb`. -/
  | started (cb : Nat)
  /-- The user's future is polled on behalf of continuation `cb`. -/
  | innerPoll (cb : Nat)
  /-- The user's future finished (returned, or panicked) with `r`. -/
  | innerReady (r : R)
  /-- The user's future is dropped. -/
  | innerDropped
  /-- The continuation `cb` is called. -/
  | invoked (cb : Nat) (p : PollCode)
  /-- The waker fired. -/
  | woke
  /-- The future was cancelled, by cancel or free. -/
  | cancelled
  /-- complete took the result; `none` means it reports `Cancelled`. -/
  | completed (out : Option R)
  /-- free dropped the future's contents. -/
  | freed
  /-- The allocation of the future is released. -/
  | released
  deriving DecidableEq, Repr

/-! ### Shared memory and running calls -/

/-- The `RustFuture` object and who refers to it. `count` is the strong count of its `Arc`;
`handle` says whether the foreign side holds the handle; `wakers` is the number of wakers user
code holds. `ub` records an access after release. -/
structure Shared (R : Type) where
  sched : Sched := .empty
  locked : Bool := false
  fut : Bool := true
  result : Option R := none
  count : Nat := 1
  handle : Bool := true
  wakers : Nat := 0
  nextCb : Nat := 0
  log : List (Ev R) := []
  ub : Bool := false
  deriving DecidableEq, Repr

/-- What a call does after invoking a callback. -/
inductive After where
  /-- Drop the `Arc` it holds. -/
  | dropArc
  /-- It holds none: done. -/
  | done
  /-- Go on with free. -/
  | free
  deriving DecidableEq, Repr

/-- Where a running call is. -/
inductive Pc where
  /-- poll: about to check for cancellation (future.rs:206). -/
  | pollStart (cb : Nat)
  /-- poll: about to lock the future (future.rs:208). -/
  | pollLock (cb : Nat)
  /-- poll: future locked, about to make a waker and poll (future.rs:209-210). -/
  | pollBody (cb : Nat)
  /-- poll: inside the user's future. -/
  | inFuture (cb : Nat)
  /-- poll: about to drop the waker. -/
  | pollDropWaker (cb : Nat) (ready : Bool)
  /-- poll: about to unlock. -/
  | pollUnlock (cb : Nat) (ready : Bool)
  /-- poll: not ready, about to store the continuation (future.rs:216). -/
  | store (cb : Nat)
  /-- Some call: about to invoke a callback, outside the scheduler lock. -/
  | invoke (cb : Nat) (p : PollCode) (k : After)
  /-- About to drop an `Arc` (end of a call, or a dropped waker). -/
  | dropArc
  /-- cancel, or the first half of free: about to cancel the scheduler (future.rs:225, 237). -/
  | cancel (free : Bool)
  /-- free: about to lock the future (future.rs:239). -/
  | freeLock
  | freeBody
  | freeUnlock
  /-- complete: about to lock the future (future.rs:232). -/
  | complLock
  | complBody
  | complUnlock
  /-- wake (`owns`) or wake_by_ref: about to wake the scheduler (future.rs:265, 273). -/
  | wake (owns : Bool)
  deriving DecidableEq, Repr

variable {R : Type}

/-- Append to the log. -/
def Shared.add (sh : Shared R) (e : Ev R) : Shared R := { sh with log := sh.log ++ [e] }

/-- Every access to the object: undefined behaviour after release. -/
def Shared.touch (sh : Shared R) : Shared R := { sh with ub := sh.ub || sh.count == 0 }

/-- The step after a callback. -/
def After.pc : After → Option Pc
  | .dropArc => some .dropArc
  | .done => none
  | .free => some .freeLock

/-- `if let Some((cb, poll)) = to_invoke { cb.invoke(poll) }`, then the rest of the call. -/
def invokeThen : Option (Nat × PollCode) → After → Option Pc
  | some (cb, p), k => some (.invoke cb p k)
  | none, k => k.pc

/-- Drop one `Arc<RustFuture>`. The last one drops the wrapped future and releases the
allocation. -/
def Shared.dropArc (sh : Shared R) : Shared R :=
  if sh.count = 1 then
    if sh.fut then (({ sh with count := 0, fut := false, result := none }.add .innerDropped).add
      .released)
    else { sh with count := 0, result := none }.add .released
  else { sh with count := sh.count - 1 }

/-- `WrappedFuture::free`: future.rs:176-179. -/
def Shared.freeInner (sh : Shared R) : Shared R :=
  if sh.fut then { sh with fut := false, result := none }.add .innerDropped
  else { sh with result := none }

/-- One step of a running call. `outcome` is what the user's future does when it returns from its
poll: `none` for `Pending`, `some r` for `Ready` (see `innerOutcome` for how a panic is turned
into an `r`). The result is `none` when the call cannot take a step now (a mutex is held by
another call), else where the call is next (`none`: finished) and the memory.

* `RustFuture::poll`: future.rs:205-218; `WrappedFuture::poll`: future.rs:144-160.
* `RustFuture::cancel`: future.rs:224-226.
* `RustFuture::complete`: future.rs:228-233; `WrappedFuture::complete`: future.rs:162-174.
* `RustFuture::free`: future.rs:235-240.
* `waker_wake`: future.rs:263-266; `waker_wake_by_ref`: 268-274; `waker_drop`: 276-279. -/
def step (outcome : Option R) (sh : Shared R) : Pc → Option (Option Pc × Shared R)
  | .pollStart cb =>
    let sh := sh.touch
    if sh.sched.isCancelled then some (some (.invoke cb .ready .dropArc), sh)
    else some (some (.pollLock cb), sh)
  | .pollLock cb =>
    if sh.locked then none
    else some (some (.pollBody cb), { sh.touch with locked := true })
  | .pollBody cb =>
    let sh := sh.touch
    let sh := { sh with count := sh.count + 1 }
    if sh.result.isSome then some (some (.pollDropWaker cb true), sh)
    else if sh.fut then some (some (.inFuture cb), sh.add (.innerPoll cb))
    else some (some (.pollDropWaker cb true), sh)
  | .inFuture cb =>
    match outcome with
    | none => some (some (.pollDropWaker cb false), sh)
    | some r =>
      let sh := sh.touch
      some (some (.pollDropWaker cb true),
        ({ sh with fut := false, result := some r }.add (.innerReady r)).add .innerDropped)
  | .pollDropWaker cb ready => some (some (.pollUnlock cb ready), sh.touch.dropArc)
  | .pollUnlock cb ready =>
    let sh := { sh.touch with locked := false }
    if ready then some (some (.invoke cb .ready .dropArc), sh)
    else some (some (.store cb), sh)
  | .store cb =>
    let (s, inv) := sh.sched.store cb
    some (invokeThen inv .dropArc, { sh.touch with sched := s })
  | .invoke cb p k => some (k.pc, sh.add (.invoked cb p))
  | .dropArc => some (none, sh.touch.dropArc)
  | .cancel free =>
    let (s, inv) := sh.sched.cancel
    some (invokeThen inv (if free then .free else .dropArc), { sh.touch with sched := s }.add .cancelled)
  | .freeLock =>
    if sh.locked then none
    else some (some .freeBody, { sh.touch with locked := true })
  | .freeBody => some (some .freeUnlock, sh.touch.freeInner.add .freed)
  | .freeUnlock => some (some .dropArc, { sh.touch with locked := false })
  | .complLock =>
    if sh.locked then none
    else some (some .complBody, { sh.touch with locked := true })
  | .complBody => some (some .complUnlock, sh.touch.freeInner.add (.completed sh.result))
  | .complUnlock => some (some .dropArc, { sh.touch with locked := false })
  | .wake owns =>
    let (s, inv) := sh.sched.wake
    some (invokeThen inv (if owns then .dropArc else .done), { sh.touch with sched := s }.add .woke)

/-- Calls that can be started. The first four are made by foreign code with the handle
(mod.rs:134-193), the others by whoever holds a waker. -/
inductive Op where
  | poll
  | cancel
  | complete
  | free
  | wakerClone
  | wakerDrop
  | wakerWake
  | wakerWakeByRef
  deriving DecidableEq, Repr

/-- The object and the calls running. -/
structure St (R : Type) where
  sh : Shared R
  acts : List Pc
  deriving DecidableEq, Repr

/-- A new future: `rust_future_new`, mod.rs:114-126. -/
def init : St R := ⟨{}, []⟩

/-- The user's future is being polled, so its context's waker is live. -/
def Pc.inside : Pc → Bool
  | .inFuture _ => true
  | _ => false

/-- The call borrows a waker (`wake_by_ref`). -/
def Pc.borrows : Pc → Bool
  | .wake false => true
  | .invoke _ _ .done => true
  | _ => false

/-- What the borrow checker enforces of user code: while a waker is borrowed, some waker lives. -/
def St.BorrowsLive (s : St R) : Prop :=
  s.acts.any Pc.borrows = true → 0 < s.sh.wakers ∨ s.acts.any Pc.inside = true

/-- Starting a call. `none` when the caller may not make it: foreign code must not use the handle
after passing it to free (mod.rs, `# Safety`), and a waker operation needs a waker.

* poll, cancel and complete take an `Arc` from the borrowed handle: handle.rs:84-87.
* free takes over the handle's own `Arc`: handle.rs:69-71.
* `waker_clone`: future.rs:249-261. -/
def start (s : St R) : Op → Option (St R)
  | .poll =>
    if s.sh.handle then
      let sh := s.sh.touch
      some ⟨{ sh with count := sh.count + 1, nextCb := sh.nextCb + 1 }.add (.started sh.nextCb),
        s.acts ++ [.pollStart sh.nextCb]⟩
    else none
  | .cancel =>
    if s.sh.handle then
      some ⟨{ s.sh.touch with count := s.sh.count + 1 }, s.acts ++ [.cancel false]⟩
    else none
  | .complete =>
    if s.sh.handle then
      some ⟨{ s.sh.touch with count := s.sh.count + 1 }, s.acts ++ [.complLock]⟩
    else none
  | .free =>
    if s.sh.handle then some ⟨{ s.sh.touch with handle := false }, s.acts ++ [.cancel true]⟩
    else none
  | .wakerClone =>
    if 0 < s.sh.wakers ∨ s.acts.any Pc.inside = true then
      some ⟨{ s.sh.touch with count := s.sh.count + 1, wakers := s.sh.wakers + 1 }, s.acts⟩
    else none
  | .wakerDrop =>
    if 0 < s.sh.wakers then
      some ⟨{ s.sh with wakers := s.sh.wakers - 1 }, s.acts ++ [.dropArc]⟩
    else none
  | .wakerWake =>
    if 0 < s.sh.wakers then
      some ⟨{ s.sh with wakers := s.sh.wakers - 1 }, s.acts ++ [.wake true]⟩
    else none
  | .wakerWakeByRef =>
    if 0 < s.sh.wakers ∨ s.acts.any Pc.inside = true then some ⟨s.sh, s.acts ++ [.wake false]⟩
    else none

/-- One running call takes a step. -/
inductive Run : St R → St R → Prop
  | mk (l₁ l₂ : List Pc) (pc : Pc) (outcome : Option R) (sh sh' : Shared R) (pc' : Option Pc) :
    step outcome sh pc = some (pc', sh') →
    (⟨sh', l₁ ++ pc'.toList ++ l₂⟩ : St R).BorrowsLive →
    Run ⟨sh, l₁ ++ pc :: l₂⟩ ⟨sh', l₁ ++ pc'.toList ++ l₂⟩

/-- A call starts or takes a step. -/
inductive Step : St R → St R → Prop
  | start (s s' : St R) (op : Op) : start s op = some s' → s'.BorrowsLive → Step s s'
  | run (s s' : St R) : Run s s' → Step s s'

/-- Any number of steps. -/
inductive Steps : St R → St R → Prop
  | refl (s : St R) : Steps s s
  | tail (s s' s'' : St R) : Steps s s' → Step s' s'' → Steps s s''

/-- All the states an execution can get to, whatever the interleaving. -/
def Reachable (s : St R) : Prop := Steps init s

/-! ### The user's future -/

/-- What one poll of the user's future does. `E` is the error type of the function. -/
inductive UserPoll (E V : Type) where
  | pending
  /-- Finished with the function's result. -/
  | ready (r : Except E V)
  /-- The arguments did not lift (uniffi_macros/src/export/scaffolding.rs: the async block
  returns the `LiftArgsError`). -/
  | liftFailed (name : String) (e : Call.AnyErr E)
  | panic (p : Call.Payload)

/-- The closure in `WrappedFuture::new`: future.rs:118-134: poll the user's future inside
`try_rust_call`. The outcome is what `WrappedFuture::poll` sees: `none` for `Pending`. -/
def innerOutcome {E V W : Type} (throws : Bool) (lower : V → Call.Eff W)
    (lowerError : E → Call.Eff Bytes) (u : UserPoll E V) :
    Call.Eff (Option (Except Call.Status W)) :=
  let body : Call.Eff (Except Call.CallError (Option W)) :=
    match u with
    | .pending => .ret (.ok none)
    | .ready r => (Call.lowerReturn lower lowerError r).bind fun
      | .ok w => .ret (.ok (some w))
      | .error e => .ret (.error e)
    | .liftFailed name e => (Call.handleFailedLift throws lowerError name e).bind fun
      | .ok w => .ret (.ok (some w))
      | .error e => .ret (.error e)
    | .panic p => .panic p
  (Call.tryRustCall Call.lowerString body).bind fun
    | .ok none => .ret none
    | .ok (some w) => .ret (some (.ok w))
    | .error st => .ret (some (.error st))

/-- What `rust_future_complete` hands to the foreign side for a result taken:
`WrappedFuture::complete`, future.rs:166-171 (`RustCallStatus::cancelled`: rustcalls.rs:65-70). -/
def completeOut {W : Type} (dflt : W) (st : Call.Status) :
    Option (Except Call.Status W) → W × Call.Status
  | some (.ok v) => (v, st)
  | some (.error e) => (dflt, e)
  | none => (dflt, ⟨.cancelled, []⟩)

end Verif.Async
