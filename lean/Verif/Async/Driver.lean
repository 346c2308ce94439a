import Verif.Async.RustFuture
/-
The generated code that awaits a Rust future, together with the future: the loop of
python/templates/Async.py:48-68, kotlin/templates/Async.kt:15-40, swift/templates/Async.swift:6-38
and the continuation callbacks (Async.py:39-46, Async.kt:9-13, Async.swift:42-48), all relative to
uniffi_bindgen/src/bindings. The three have the same shape; only Python and Kotlin can be
cancelled while suspended.

The key of a continuation in the handle map is identified with the number of the poll it was made
for (that keys are distinct is C34). The three calls poll, complete and free are made one after
the other by the code below; the model lets the next begin before the previous one has returned,
so that everything the code can do is among the executions.
-/
namespace Verif.Async
open Verif

variable {R : Type}

/-- Where the await loop is. The outcome is `none` for an exception (cancellation), `some o` if
complete gave `o`. -/
inductive DPc (R : Type) where
  /-- About to make a continuation, insert it and poll (Async.py:54-59). -/
  | poll
  /-- Waiting for continuation `cb` (Async.py:60). -/
  | suspended (cb : Nat)
  /-- The continuation was called with `p`. -/
  | resumed (p : PollCode)
  /-- About to call complete (Async.py:64-66). -/
  | complete
  | completing
  /-- `finally`: about to free (Async.py:67-68). -/
  | cleanup (out : Option (Option R))
  | finished (out : Option (Option R))
  deriving DecidableEq, Repr

/-- The future, the loop, the continuation map, and the calls the loop made so far. `bad` records a
continuation callback that did not find its handle in the map. -/
structure D (R : Type) where
  st : St R := init
  pc : DPc R := .poll
  map : List Nat := []
  ops : List Op := []
  bad : Bool := false
  deriving DecidableEq, Repr

/-- Resume the coroutine with `p` if it waits for `cb`. -/
def DPc.resume (cb : Nat) (p : PollCode) : DPc R → DPc R
  | .suspended c => if c = cb then .resumed p else .suspended c
  | pc => pc

/-- What the loop notices of a step of the future: the continuation callback removes the handle from
the map and resumes the coroutine, if it still waits (Async.py:39-46, Async.kt:10-12,
Async.swift:42-48); complete returns what it took. -/
def D.notice (d : D R) (sh : Shared R) : Pc → D R
  | .invoke cb p _ =>
    { d with
      map := d.map.filter (· != cb)
      bad := d.bad || !d.map.contains cb
      pc := d.pc.resume cb p }
  | .complBody =>
    match d.pc with
    | .completing => { d with pc := .cleanup (some sh.result) }
    | _ => d
  | _ => d

/-- Where the loop goes with a poll code: Async.py:61-62, Async.kt:31, Async.swift:31. -/
def DPc.afterPoll : PollCode → DPc R
  | .ready => .complete
  | .wake => .poll

/-- Operations of whoever holds a waker. -/
def Op.ofWaker : Op → Bool
  | .wakerClone => true
  | .wakerDrop => true
  | .wakerWake => true
  | .wakerWakeByRef => true
  | _ => false

/-- One step of the loop or of the future. -/
inductive DStep : D R → D R → Prop
  | poll (d : D R) (st' : St R) : d.pc = .poll → Async.start d.st .poll = some st' →
      DStep d { d with
        st := st', pc := .suspended d.st.sh.nextCb, map := d.st.sh.nextCb :: d.map
        ops := d.ops ++ [.poll] }
  /-- `poll_code = await future`. -/
  | resume (d : D R) (p : PollCode) : d.pc = .resumed p → DStep d { d with pc := DPc.afterPoll p }
  /-- An exception before or while waiting: there is no event loop, or the task is cancelled. -/
  | cancel (d : D R) : (d.pc = .poll ∨ (∃ cb, d.pc = .suspended cb) ∨ ∃ p, d.pc = .resumed p) →
      DStep d { d with pc := .cleanup none }
  | complete (d : D R) (st' : St R) : d.pc = .complete → Async.start d.st .complete = some st' →
      DStep d { d with st := st', pc := .completing, ops := d.ops ++ [.complete] }
  | free (d : D R) (out : Option (Option R)) (st' : St R) : d.pc = .cleanup out →
      Async.start d.st .free = some st' →
      DStep d { d with st := st', pc := .finished out, ops := d.ops ++ [.free] }
  /-- User code uses a waker. -/
  | waker (d : D R) (op : Op) (st' : St R) : op.ofWaker = true →
      Async.start d.st op = some st' → st'.BorrowsLive → DStep d { d with st := st' }
  /-- A call in progress takes a step. -/
  | run (d : D R) (l₁ l₂ : List Pc) (pc : Pc) (outcome : Option R) (sh' : Shared R)
      (pc' : Option Pc) : d.st.acts = l₁ ++ pc :: l₂ → Async.step outcome d.st.sh pc = some (pc', sh') →
      (⟨sh', l₁ ++ pc'.toList ++ l₂⟩ : St R).BorrowsLive →
      DStep d { d.notice d.st.sh pc with st := ⟨sh', l₁ ++ pc'.toList ++ l₂⟩ }

/-- States of executions. -/
inductive DReach : D R → Prop
  | init : DReach {}
  | step (d d' : D R) : DReach d → DStep d d' → DReach d'

end Verif.Async
