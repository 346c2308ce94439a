import Verif.Async.ForeignFuture
/-
The invariant of a foreign future, kept by every step.
-/
namespace Verif.ForeignFuture
open Verif

variable {T U : Type} {lift : T → U}

/-- The Rust side holds an `Arc` of the channel. -/
def RustPc.arcs : RustPc T → Nat
  | .recv _ => 1
  | .waiting _ => 1
  | .got _ _ => 1
  | .dropRecv => 1
  | _ => 0

/-- The foreign side, or a send in progress, holds one. -/
def SendPc.arcs : SendPc T → Nat
  | .notMade => 0
  | .used => 0
  | _ => 1

/-- The value was put into the channel. -/
def SendPc.stored : SendPc T → Bool
  | .wake _ => true
  | .drop => true
  | .used => true
  | _ => false

/-- The completion callback was called. -/
def SendPc.begun : SendPc T → Bool
  | .notMade => false
  | .held => false
  | _ => true

def SendPc.made : SendPc T → Bool
  | .notMade => false
  | _ => true

/-- The channel can exist. -/
def RustPc.madeOk : RustPc T → Bool → Bool
  | .fresh, m => !m
  | .call _, m => !m
  | .gone, _ => true
  | _, m => m

def Ev.isReady : Ev T U → Bool
  | .ready _ _ => true
  | _ => false
def Ev.isCompleted : Ev T U → Bool
  | .completed _ => true
  | _ => false
def Ev.isCalled : Ev T U → Bool
  | .called => true
  | _ => false
def Ev.isWoke : Ev T U → Bool
  | .woke _ => true
  | _ => false
def Ev.isDropped : Ev T U → Bool
  | .dropped => true
  | _ => false
def Ev.isDroppedCallback : Ev T U → Bool
  | .droppedCallback => true
  | _ => false
def Ev.isReleased : Ev T U → Bool
  | .released => true
  | _ => false

def b2n (b : Bool) : Nat := if b then 1 else 0

/-- How often `Ready` was returned, given where the future is. -/
def RustPc.readyOk : RustPc T → Nat → Prop
  | .done, n => n = 1
  | .gone, n => n ≤ 1
  | _, n => n = 0

def RustPc.callbackRan : RustPc T → Bool → Nat
  | .done, _ => 1
  | .gone, m => b2n m
  | _, _ => 0

def RustPc.droppedN : RustPc T → Nat
  | .dropRecv => 1
  | .dropCallback => 1
  | .gone => 1
  | _ => 0

def SendPc.wokeOk : SendPc T → Nat → Prop
  | .drop, n => n ≤ 1
  | .used, n => n ≤ 1
  | _, n => n = 0

structure Inv (lift : T → U) (s : St T U) : Prop where
  ub : s.ub = false
  arcs : s.count = s.rust.arcs + s.send.arcs
  made : s.rust.madeOk s.send.made = true
  nCalled : s.log.countP Ev.isCalled = b2n s.send.made
  nCompleted : s.log.countP Ev.isCompleted = b2n s.send.begun
  nReady : s.rust.readyOk (s.log.countP Ev.isReady)
  nCallback : s.log.countP Ev.isDroppedCallback = s.rust.callbackRan s.send.made
  nDropped : s.log.countP Ev.isDropped = s.rust.droppedN
  nReleased : s.log.countP Ev.isReleased = b2n (s.send.made && s.count == 0)
  nWoke : s.send.wokeOk (s.log.countP Ev.isWoke)
  value : ∀ v, s.value = some v → Ev.completed v ∈ s.log
  valueStored : s.send.stored = false → s.value = none
  storing : ∀ v, s.send = .store v → Ev.completed v ∈ s.log
  got : ∀ n v, s.rust = .got n v → Ev.completed v ∈ s.log ∧ s.send.stored = true
  finish : ∀ n v, s.rust = .finish n v → Ev.completed v ∈ s.log ∧ s.send.stored = true
  done : s.rust = .done → s.send.stored = true
  ready : ∀ n u, Ev.ready n u ∈ s.log → ∃ v, Ev.completed v ∈ s.log ∧ u = lift v
  kept : s.send.stored = true → (∃ n, s.rust = .recv n ∨ s.rust = .waiting n) → s.value.isSome = true
  waker : ∀ n, s.rust = .waiting n → s.send.stored = false → s.waker = some n
  wakerSend : ∀ n w, s.rust = .waiting n → s.send = .wake w → w = some n
  wakerWoke : ∀ n, s.rust = .waiting n → (s.send = .drop ∨ s.send = .used) → Ev.woke n ∈ s.log
  wakerPending : ∀ n, s.waker = some n → Ev.pending n ∈ s.log
  wakerPending' : ∀ n, s.send = .wake (some n) → Ev.pending n ∈ s.log
  wokePending : ∀ n, Ev.woke n ∈ s.log → Ev.pending n ∈ s.log
  pending : ∀ n, Ev.pending n ∈ s.log → Ev.polled (n + 1) ∈ s.log ∨ Ev.dropped ∈ s.log ∨
    s.rust = .waiting n
  callPolled : Ev.called ∈ s.log ∨ (∃ n, s.rust = .call n) → Ev.polled 0 ∈ s.log

theorem Inv.init : Inv lift ({} : St T U) := by
  constructor <;> simp [RustPc.arcs, SendPc.arcs, SendPc.stored, SendPc.begun, SendPc.made, RustPc.madeOk, RustPc.readyOk,
    RustPc.callbackRan, RustPc.droppedN, SendPc.wokeOk, b2n]

section
variable {s s' : St T U} (h : Inv lift s)
include h

macro "close" : tactic => `(tactic| (constructor <;>
    simp only [St.add, St.touch, List.countP_append, List.countP_cons, List.countP_nil, List.mem_append,
      List.mem_singleton] <;>
    grind [RustPc.arcs, SendPc.arcs, SendPc.stored, SendPc.begun, SendPc.made,
      RustPc.madeOk, RustPc.readyOk, RustPc.callbackRan, RustPc.droppedN, SendPc.wokeOk, b2n, Ev.isReady,
      Ev.isCompleted, Ev.isCalled, Ev.isWoke, Ev.isDropped, Ev.isDroppedCallback, Ev.isReleased]))

theorem Inv.poll (e : step lift s .poll = some s') : Inv lift s' := by
  obtain ⟨rust, send, value, waker, count, log, ub⟩ := s
  obtain ⟨h1, h2, h3, h4, h5, h6, h7, h8, h9, h10, h11, h12, h13, h14, h15, h16, h17, h18, h19, h20,
    h21, h22, h23, h24, h25, h26⟩ := h
  dsimp only at *
  cases rust <;> simp only [ForeignFuture.step, Option.some.injEq, reduceCtorEq] at e <;> subst e
  · close
  · close

theorem Inv.drop (e : step lift s .drop = some s') : Inv lift s' := by
  obtain ⟨rust, send, value, waker, count, log, ub⟩ := s
  obtain ⟨h1, h2, h3, h4, h5, h6, h7, h8, h9, h10, h11, h12, h13, h14, h15, h16, h17, h18, h19, h20,
    h21, h22, h23, h24, h25, h26⟩ := h
  dsimp only at *
  cases rust <;> simp only [ForeignFuture.step, Option.some.injEq, reduceCtorEq] at e <;> subst e
  · close
  · close
  · close

theorem Inv.complete {v : T} (e : step lift s (.complete v) = some s') : Inv lift s' := by
  obtain ⟨rust, send, value, waker, count, log, ub⟩ := s
  obtain ⟨h1, h2, h3, h4, h5, h6, h7, h8, h9, h10, h11, h12, h13, h14, h15, h16, h17, h18, h19, h20,
    h21, h22, h23, h24, h25, h26⟩ := h
  dsimp only at *
  cases send <;> simp only [ForeignFuture.step, Option.some.injEq, reduceCtorEq] at e <;> subst e
  close

set_option maxHeartbeats 4000000 in
theorem Inv.rust (e : step lift s .rust = some s') : Inv lift s' := by
  obtain ⟨rust, send, value, waker, count, log, ub⟩ := s
  obtain ⟨h1, h2, h3, h4, h5, h6, h7, h8, h9, h10, h11, h12, h13, h14, h15, h16, h17, h18, h19, h20,
    h21, h22, h23, h24, h25, h26⟩ := h
  dsimp only at *
  cases rust <;> simp only [ForeignFuture.step, Option.some.injEq, reduceCtorEq] at e
  · subst e
    cases send <;> first | (simp [RustPc.madeOk, SendPc.made] at h3; done) | close
  · cases value <;> simp only [Option.some.injEq] at e <;> subst e
    · close
    · close
  · subst e
    simp only [St.dropArc]; split <;> close
  · subst e
    close
  · subst e
    simp only [St.dropArc]; split <;> close
  · subst e
    close

set_option maxHeartbeats 4000000 in
theorem Inv.send (e : step lift s .send = some s') : Inv lift s' := by
  obtain ⟨rust, send, value, waker, count, log, ub⟩ := s
  obtain ⟨h1, h2, h3, h4, h5, h6, h7, h8, h9, h10, h11, h12, h13, h14, h15, h16, h17, h18, h19, h20,
    h21, h22, h23, h24, h25, h26⟩ := h
  dsimp only at *
  cases send <;> simp only [ForeignFuture.step, Option.some.injEq, reduceCtorEq] at e
  · subst e
    close
  · rename_i w
    cases w <;> simp only [Option.some.injEq] at e <;> subst e
    · close
    · close
  · subst e
    simp only [St.dropArc]; split <;> close

theorem Inv.step {a : Act T} (e : step lift s a = some s') : Inv lift s' := by
  cases a
  · exact h.poll e
  · exact h.drop e
  · exact h.complete e
  · exact h.rust e
  · exact h.send e

theorem Inv.run {as : List (Act T)} (e : run lift s as = some s') : Inv lift s' := by
  induction as generalizing s with
  | nil => simp only [ForeignFuture.run, Option.some.injEq] at e; exact e ▸ h
  | cons a as ih =>
    simp only [ForeignFuture.run, Option.bind_eq_some_iff] at e
    obtain ⟨s₁, e₁, e₂⟩ := e
    exact ih (h.step e₁) e₂
end
end Verif.ForeignFuture
