import Verif.Bytes
/-
One call of an async Rust function from Kotlin through JNI: the future, its wakers, the scheduler and the
Kotlin loop that awaits it.

uniffi-bindgen-kotlin-jni/src: `scaffolding/templates/async.rs`, `bindings/templates/shared/Async.kt`;
uniffi_core/src/ffi/rustfuture/scheduler.rs.

Any number of threads call wakers at any time. Waking threads do not differ from each other, so those that
wait for the lock and those that have released it are only counted. A scheduler method runs while the mutex
around the scheduler is held (async.rs:26, 30, 94, 153), so the mutex inside the scheduler is always free;
it is left out. The cancel function (161-174) is left out: Kotlin code never calls it. `wake_by_ref` is
modelled as `clone` followed by `wake`. Functions without a result are modelled as returning some value.
-/
namespace Verif.JniAsync

/-- How an async function ends: a value (`none` stands for `null` in Kotlin), a declared error, or a panic
or a result that cannot be passed. -/
inductive Res where
  | ok (v : Option Nat)
  | err (e : Nat)
  | panic
  deriving DecidableEq, Repr

/-- How the call in Kotlin ends. -/
inductive Out where
  | returned (v : Option Nat)
  | threw (e : Nat)
  | internal
  /-- the exception of `!!` -/
  | npe
  deriving DecidableEq, Repr

/-- `scheduler.rs:26-38`; a continuation has the number of its suspension. -/
inductive Sched where
  | empty
  | waked
  | set (n : Nat)
  deriving DecidableEq, Repr

/-- The continuation of `suspendCoroutine`, which the standard library wraps: before the block has returned
a result is kept, afterwards it resumes the coroutine; a second result is an exception. -/
inductive Cont where
  | undecided
  | suspended
  | resumed
  deriving DecidableEq, Repr

/-- What one poll tells Kotlin. -/
inductive Code where
  | pending
  | complete
  /-- an exception is thrown -/
  | threw (o : Out)
  deriving DecidableEq, Repr

/-- Who holds the mutex around the scheduler, and where they are. -/
inductive Holder where
  | free
  /-- the thread that polls -/
  | driver
  /-- a thread that wakes, about to run `Scheduler::wake` -/
  | locked
  /-- it took continuation `n` out and is about to call it: async.rs:43-57 -/
  | invoke (n : Nat)
  /-- it called the continuation, and the coroutine runs on this thread, inside that call -/
  | inside
  /-- about to delete the global reference: 58 -/
  | del
  /-- about to release the mutex -/
  | unlock
  deriving DecidableEq, Repr

/-- Where the call is: Async.kt:14-52, async.rs:84-157. -/
inductive Pc where
  /-- the head of the loop -/
  | start
  /-- about to look whether it was cancelled: async.rs:94-97 -/
  | check
  /-- about to lock the future: 99-101 -/
  | lockFuture
  /-- the code of the user runs: 102 -/
  | polling
  /-- the result goes to Kotlin: 103-147 -/
  | deliver (r : Res)
  /-- a global reference was made, the mutex is next: 150-153 -/
  | store
  /-- about to run `Scheduler::store` -/
  | stored
  /-- `store` calls the continuation at once: scheduler.rs:97-99 -/
  | storeInvoke
  /-- about to delete the global reference: async.rs:58 -/
  | storeDel
  /-- about to release the mutex -/
  | storeUnlock
  /-- the poll function returns -/
  | ret (c : Code)
  /-- Async.kt:27-40, and the end of the block -/
  | back (c : Code)
  /-- the coroutine is suspended -/
  | suspended
  /-- the coroutine goes on with `futureReady`: 42-48 -/
  | resumed (ready : Bool)
  /-- `finally`: 50-51 -/
  | cleanup (o : Out)
  | finished (o : Out)
  deriving DecidableEq, Repr

inductive Ev where
  /-- the future is polled -/
  | polled
  /-- it gave its result -/
  | result (r : Res)
  /-- continuation `n` was called -/
  | resume (n : Nat)
  /-- the handle was given to the free function -/
  | freed
  /-- the future was dropped -/
  | dropped
  deriving DecidableEq, Repr

structure S where
  sched : Sched := .empty
  holder : Holder := .free
  /-- threads that called a waker and have not got the mutex yet -/
  waiting : Nat := 0
  /-- threads that have released it and still hold their `Arc` -/
  ending : Nat := 0
  /-- wakers that somebody has -/
  wakers : Nat := 0
  pc : Pc := .start
  /-- the number of the current continuation, and its state -/
  cur : Nat := 0
  cont : Cont := .resumed
  /-- the coroutine runs inside the call of a continuation -/
  inl : Bool := false
  /-- the mutex around the future: async.rs:8 -/
  futLock : Bool := false
  /-- the strong count of the `Arc` -/
  strong : Nat := 1
  /-- global references made by poll and not deleted -/
  globals : Nat := 0
  /-- `completion.value` -/
  value : Option Nat := none
  /-- for the record: a waker was called after the last poll began -/
  owed : Bool := false
  /-- for the record: how often a waker was called -/
  wakes : Nat := 0
  log : List Ev := []
  /-- memory was used after it was freed, a continuation was resumed twice, or a reference deleted twice -/
  bad : Bool := false

def S.add (s : S) (e : Ev) : S := { s with log := s.log ++ [e] }

/-- `Arc::increment_strong_count`, `Arc::clone`. -/
def S.incr (s : S) : S := if s.strong = 0 then { s with bad := true } else { s with strong := s.strong + 1 }

/-- Dropping an `Arc`; the last one drops the future. -/
def S.decr (s : S) : S :=
  if s.strong = 0 then { s with bad := true }
  else if s.strong = 1 then { s.add .dropped with strong := 0 }
  else { s with strong := s.strong - 1 }

/-- `uniffiContinuationResume`: Async.kt:5-7. Continuations made before were resumed before. -/
def S.resume (s : S) (n : Nat) : S :=
  let s := s.add (.resume n)
  if n = s.cur then
    match s.cont with
    | .undecided => { s with cont := .resumed }
    | .suspended => { s with cont := .resumed, pc := .resumed false }
    | .resumed => { s with bad := true }
  else { s with bad := true }

/-- `DeleteGlobalRef`. -/
def S.delRef (s : S) : S := if s.globals = 0 then { s with bad := true } else { s with globals := s.globals - 1 }

/-- The next step of the call; `none` if it has to wait or is over. -/
def S.driver (s : S) : Option S :=
  match s.pc with
  -- a new continuation, and the call of poll: Async.kt:19-26, async.rs:87-92
  | .start => some { s.incr with pc := .check, cur := s.cur + 1, cont := .undecided }
  | .check => if s.holder = .free then some { s with pc := .lockFuture } else none
  | .lockFuture =>
    if s.futLock then none else some { (s.incr).add .polled with pc := .polling, futLock := true, owed := false }
  | .polling => none
  | .deliver (.ok v) => some { s with pc := .ret .complete, value := v }
  | .deliver (.err e) => some { s with pc := .ret (.threw (.threw e)) }
  | .deliver .panic => some { s with pc := .ret (.threw .internal) }
  | .store => if s.holder = .free then some { s with pc := .stored, holder := .driver } else none
  -- scheduler.rs:70-95
  | .stored =>
    match s.sched with
    | .empty => some { s with pc := .storeUnlock, sched := .set s.cur }
    -- "Is poll() being called from multiple threads at once?": the old one is called
    | .set n => some { s.resume n with pc := .storeDel, sched := .set s.cur }
    | .waked => some { s with pc := .storeInvoke, sched := .empty }
  | .storeInvoke => some { s.resume s.cur with pc := .storeDel }
  | .storeDel => some { s.delRef with pc := .storeUnlock }
  | .storeUnlock => some { s with pc := .ret .pending, holder := .free }
  -- the waker, the guard and the `Arc` are dropped
  | .ret c => some { ({ s with futLock := false } : S).decr.decr with pc := .back c }
  | .back .pending =>
    match s.cont with
    | .undecided => some { s with cont := .suspended, pc := .suspended, inl := false }
    | .resumed => some { s with pc := .resumed false }
    | .suspended => some { s with bad := true }
  | .back .complete =>
    match s.cont with
    | .undecided => some { s with cont := .resumed, pc := .resumed true }
    | _ => some { s with bad := true, pc := .cleanup .internal }
  | .back (.threw o) => some { s with pc := .cleanup o }
  | .suspended => none
  | .resumed true =>
    some { s with pc := .cleanup (match s.value with | some v => .returned (some v) | none => .npe) }
  | .resumed false => some { s with pc := .start }
  | .cleanup o => some { (s.add .freed).decr with pc := .finished o, inl := false }
  | .finished _ => none

/-- The next step of the waking thread that holds the mutex: async.rs:26, 43-61, scheduler.rs:109-125.
With `inline`, resuming the coroutine runs it there and then (for example with `Dispatchers.Unconfined`);
otherwise a dispatcher runs it on another thread. -/
def S.wakeStep (inline : Bool) (s : S) : Option S :=
  match s.holder with
  | .free => none
  | .driver => none
  | .locked =>
    match s.sched with
    | .empty => some { s with sched := .waked, holder := .unlock }
    | .waked => some { s with holder := .unlock }
    | .set n => some { s with sched := .empty, holder := .invoke n }
  | .invoke n =>
    if inline = true ∧ s.cont = .suspended then some { s.resume n with holder := .inside, inl := true }
    else some { s.resume n with holder := .del }
  | .inside => if s.inl then none else some { s with holder := .del }
  | .del => some { s.delRef with holder := .unlock }
  | .unlock => some { s with holder := .free, ending := s.ending + 1 }

/-- What can happen. -/
inductive Cmd where
  /-- somebody clones a waker: the future that is polled, or whoever has one -/
  | clone
  /-- a waker is dropped -/
  | drop
  /-- a waker is called -/
  | wake
  /-- the code of the user returns from poll: pending, or a result -/
  | answer (r : Option Res)
  | driver
  /-- a waking thread gets the mutex -/
  | lock
  | wakeStep
  /-- a waking thread drops its `Arc` -/
  | endWake
  deriving DecidableEq, Repr

/-- One step; `none` if it cannot happen now. -/
def step (inline : Bool) (s : S) : Cmd → Option S
  | .clone => if s.pc = .polling ∨ 0 < s.wakers then some { s.incr with wakers := s.wakers + 1 } else none
  | .drop => if 0 < s.wakers then some { s.decr with wakers := s.wakers - 1 } else none
  | .wake =>
    if 0 < s.wakers then some { s with wakers := s.wakers - 1, waiting := s.waiting + 1, owed := true, wakes := s.wakes + 1 }
    else none
  | .answer none =>
    if s.pc = .polling then some { s with pc := .store, globals := s.globals + 1 } else none
  | .answer (some r) => if s.pc = .polling then some { s.add (.result r) with pc := .deliver r } else none
  | .driver => s.driver
  | .lock =>
    if s.holder = .free ∧ 0 < s.waiting then some { s with holder := .locked, waiting := s.waiting - 1 } else none
  | .wakeStep => s.wakeStep inline
  | .endWake => if 0 < s.ending then some { s.decr with ending := s.ending - 1 } else none

/-- The steps of generated code and uniffi_core; the others are steps of code of the user. -/
def Cmd.own : Cmd → Bool
  | .driver | .lock | .wakeStep | .endWake => true
  | _ => false

/-- All states of all histories. -/
inductive Reach (inline : Bool) : S → Prop
  | init : Reach inline {}
  | step (s s' : S) (c : Cmd) : Reach inline s → step inline s c = some s' → Reach inline s'

end Verif.JniAsync
