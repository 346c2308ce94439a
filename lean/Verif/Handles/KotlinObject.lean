import Verif.Bytes
/-
A Kotlin object that holds a Rust handle: `callWithHandle`, `destroy`, `close` and the cleaner, run by
any number of threads.

uniffi_bindgen/src/bindings/kotlin/templates/ObjectTemplate.kt:126-224, 265-267 and
ObjectCleanerHelper.kt. One object; each access to an atomic variable is one step. The counter is a
natural number: `C36_counter_bounded` shows that it stays a `Long`.
-/
namespace Verif.KotlinObject

/-- What one thread is doing with the object. -/
inductive Pc where
  | idle
  /-- In the loop of `callWithHandle`, before `callCounter.get()`: 181. -/
  | start
  /-- With the value `c` read: 182-188. -/
  | got (c : Nat)
  /-- The counter was incremented, `uniffiCloneHandle()` is next: 191. -/
  | counted
  /-- The method runs with the cloned handle: 191. -/
  | running
  /-- In `finally`, before `decrementAndGet`: 194. -/
  | leaving
  /-- Before `cleanable?.clean()`: 167, 195. -/
  | cleaning
  /-- In `destroy`, before `compareAndSet`: 164. -/
  | destroying
  /-- The flag was set by this thread, `decrementAndGet` is next: 166. -/
  | destroyed
  /-- Passing the object as an argument: `lower`, 265-267, 300-303. -/
  | passing
  deriving DecidableEq, Repr

inductive Ev where
  /-- A method call has cloned the handle. -/
  | cloned (i : Nat)
  /-- The method has returned or thrown. -/
  | returned (i : Nat)
  /-- `IllegalStateException`, object has been destroyed. -/
  | refused (i : Nat)
  /-- `IllegalStateException`, call counter would overflow. -/
  | overflow (i : Nat)
  /-- `lower` has cloned the handle. -/
  | passed (i : Nat)
  /-- `destroy` or `close` is called. -/
  | destroy (i : Nat)
  /-- The object became unreachable. -/
  | unreachable
  /-- The Rust handle is released: `UniffiCleanAction.run`, 202-212. -/
  | freed
  deriving DecidableEq, Repr

/-- `Long.MAX_VALUE`. -/
def longMax : Nat := 2 ^ 63 - 1

structure St where
  /-- `callCounter`: 154. -/
  counter : Nat := 1
  /-- `wasDestroyed`: 153. -/
  flag : Bool := false
  /-- The cleaner has run the action. A `Cleanable` runs it at most once (contract of
  java.lang.ref.Cleaner and com.sun.jna.internal.Cleaner). -/
  cleaned : Bool := false
  /-- No reference to the object is left. -/
  gone : Bool := false
  threads : List Pc
  log : List Ev := []
  deriving DecidableEq, Repr

def St.at_ (s : St) (i : Nat) (p : Pc) : St := { s with threads := s.threads.set i p }

def St.add (s : St) (e : Ev) : St := { s with log := s.log ++ [e] }

/-- `Cleanable.clean()`, also run by the cleaner's own thread. -/
def St.clean (s : St) : St :=
  if s.cleaned then s else { s.add .freed with cleaned := true }

/-- One step of thread `i`, or of the garbage collector. -/
inductive Step : St → St → Prop where
  | call (s i) (h : s.threads[i]? = some .idle) (hg : s.gone = false) : Step s (s.at_ i .start)
  /-- 181 -/
  | get (s i) (h : s.threads[i]? = some .start) : Step s (s.at_ i (.got s.counter))
  /-- 182-184 -/
  | refuse (s i c) (h : s.threads[i]? = some (.got c)) (hc : c = 0) :
      Step s ((s.at_ i .idle).add (.refused i))
  /-- 185-187 -/
  | full (s i c) (h : s.threads[i]? = some (.got c)) (hc : c ≠ 0) (hm : c = longMax) :
      Step s ((s.at_ i .idle).add (.overflow i))
  /-- 188, success -/
  | enter (s i c) (h : s.threads[i]? = some (.got c)) (hc : c ≠ 0) (hm : c ≠ longMax)
      (he : s.counter = c) : Step s { s.at_ i .counted with counter := c + 1 }
  /-- 188, failure: again -/
  | retry (s i c) (h : s.threads[i]? = some (.got c)) (hc : c ≠ 0) (hm : c ≠ longMax)
      (he : s.counter ≠ c) : Step s (s.at_ i .start)
  /-- 191, 217-224 -/
  | clone (s i) (h : s.threads[i]? = some .counted) : Step s ((s.at_ i .running).add (.cloned i))
  /-- 191: `uniffiCloneHandle` throws -/
  | cloneFails (s i) (h : s.threads[i]? = some .counted) : Step s (s.at_ i .leaving)
  /-- 191: the block returns or throws -/
  | ret (s i) (h : s.threads[i]? = some .running) : Step s ((s.at_ i .leaving).add (.returned i))
  /-- 194 -/
  | leave (s i) (h : s.threads[i]? = some .leaving) :
      Step s { s.at_ i (if s.counter - 1 = 0 then .cleaning else .idle) with
        counter := s.counter - 1 }
  /-- 167, 195 -/
  | clean (s i) (h : s.threads[i]? = some .cleaning) : Step s (s.clean.at_ i .idle)
  /-- 161-163, 172-175: `close` adds a lock, which a thread may hold or not -/
  | destroy (s i) (h : s.threads[i]? = some .idle) (hg : s.gone = false) :
      Step s ((s.at_ i .destroying).add (.destroy i))
  /-- 164 -/
  | set (s i) (h : s.threads[i]? = some .destroying) :
      Step s { s.at_ i (if s.flag then .idle else .destroyed) with flag := true }
  /-- 166 -/
  | drop (s i) (h : s.threads[i]? = some .destroyed) :
      Step s { s.at_ i (if s.counter - 1 = 0 then .cleaning else .idle) with
        counter := s.counter - 1 }
  | pass (s i) (h : s.threads[i]? = some .idle) (hg : s.gone = false) : Step s (s.at_ i .passing)
  /-- 266, 303 -/
  | lower (s i) (h : s.threads[i]? = some .passing) : Step s ((s.at_ i .idle).add (.passed i))
  /-- The last reference is dropped: no thread is inside a method of the object. -/
  | lose (s) (hg : s.gone = false) (h : ∀ p ∈ s.threads, p = .idle) :
      Step s ({ s with gone := true }.add .unreachable)
  /-- The cleaner's thread: 128. -/
  | collect (s) (hg : s.gone = true) : Step s s.clean

/-- Any number of threads. -/
inductive Reach : St → Prop where
  | init (n : Nat) : Reach { threads := List.replicate n .idle }
  | step (s s') : Reach s → Step s s' → Reach s'

end Verif.KotlinObject
