import Verif.Async.ForeignFutureLemmas
/-
C30 and C31: Rust awaiting an asynchronous foreign method, for every interleaving of polls, the drop
of the Rust future and the completion by the foreign side.

What happens is read off the log of events (`Ev`), oldest first. `Reachable lift s` ranges over all
states of all executions; `lift` is what Rust makes of what the foreign side reported.
-/
namespace Verif.Props.ForeignFuture
open Verif Verif.ForeignFuture

variable {T U : Type} {lift : T → U} {s s' : St T U}

/-- States of executions. -/
def Reachable (lift : T → U) (s : St T U) : Prop := ∃ as, ForeignFuture.run lift {} as = some s

theorem Reachable.inv (h : Reachable lift s) : Inv lift s := by
  obtain ⟨as, e⟩ := h
  exact Inv.init.run e

/-- How often something happened. -/
def times (p : Ev T U → Bool) (s : St T U) : Nat := (s.log.filter p).length

theorem times_eq (p : Ev T U → Bool) (s : St T U) : times p s = s.log.countP p :=
  (List.countP_eq_length_filter ..).symm

/-- No poll, drop or send is going on. -/
def Quiet (s : St T U) : Prop :=
  (s.rust = .fresh ∨ (∃ n, s.rust = .waiting n) ∨ s.rust = .done ∨ s.rust = .gone) ∧
  (s.send = .notMade ∨ s.send = .held ∨ s.send = .used)

theorem countP_pos_of {p : Ev T U → Bool} {e : Ev T U} (h : e ∈ s.log) (hp : p e = true) :
    0 < s.log.countP p := List.countP_pos_iff.2 ⟨e, h, hp⟩

/-! ### An execution in which everything happens -/

/-- The value arrives between two polls; the Rust future is then polled and dropped. -/
def demo : List (Act Nat) :=
  [.poll, .rust, .rust, .complete 7, .send, .send, .poll, .rust, .rust, .send, .rust, .drop]

example : ∃ s, ForeignFuture.run (fun n => n + 1) {} demo = some s ∧ s.log =
    [.polled 0, .called, .pending 0, .completed 7, .woke 0, .polled 1, .released, .droppedCallback,
      .ready 1 8, .dropped] := ⟨_, rfl, by decide⟩

/-- The value arrives during the call of the method, before the first look into the channel. -/
example : ∃ s, ForeignFuture.run (fun n => n + 1) {}
    [.poll, .rust, .complete 7, .send, .send, .send, .rust, .rust, .rust] = some s ∧ s.log =
    [.polled 0, .called, .completed 7, .released, .droppedCallback, .ready 0 8] := ⟨_, rfl, by decide⟩

/-- The Rust future is dropped while waiting; the value arrives later and is thrown away. -/
example : ∃ s, ForeignFuture.run (fun n => n + 1) {}
    [.poll, .rust, .rust, .drop, .rust, .rust, .complete 7, .send, .send, .send] = some s ∧ s.log =
    [.polled 0, .called, .pending 0, .dropped, .droppedCallback, .completed 7, .woke 0, .released] :=
  ⟨_, rfl, by decide⟩

/-! ### C30 -/

/-- C30. The future gives its result at most once, and what it gives is the lifted value the
foreign side reported, which it reports at most once. -/
theorem C30_at_most_once (h : Reachable lift s) :
    times Ev.isReady s ≤ 1 ∧ times Ev.isCompleted s ≤ 1 ∧
    ∀ n u, Ev.ready n u ∈ s.log → ∃ v, Ev.completed v ∈ s.log ∧ u = lift v := by
  have i := h.inv
  simp only [times_eq]
  refine ⟨?_, ?_, i.ready⟩
  · have := i.nReady
    generalize s.log.countP Ev.isReady = k at *
    cases hr : s.rust <;> rw [hr] at this <;> simp only [RustPc.readyOk] at this <;> omega
  · rw [i.nCompleted]; unfold b2n; split <;> omega

/-- Where the future is when its last poll returned `Pending`. -/
theorem waiting_of_log (h : Reachable lift s) {n : Nat} (hp : Ev.pending n ∈ s.log)
    (hn : Ev.polled (n + 1) ∉ s.log) (hd : Ev.dropped ∉ s.log) : s.rust = .waiting n := by
  rcases h.inv.pending n hp with h | h | h
  · exact absurd h hn
  · exact absurd h hd
  · exact h

/-- C30. No wake is lost: if the last poll of a future that was not dropped returned `Pending` and
the completion call has returned, then the waker given to that poll was woken. -/
theorem C30_no_lost_wake (h : Reachable lift s) {n : Nat} (hp : Ev.pending n ∈ s.log)
    (hlast : Ev.polled (n + 1) ∉ s.log) (hd : Ev.dropped ∉ s.log) (hs : s.send = .used) :
    Ev.woke n ∈ s.log :=
  h.inv.wakerWoke n (waiting_of_log h hp hlast hd) (.inr hs)

example : ∃ s, ForeignFuture.run (fun n : Nat => n) {}
    [.poll, .rust, .rust, .complete 7, .send, .send, .send] = some s ∧ Ev.pending 0 ∈ s.log ∧
    Ev.polled 1 ∉ s.log ∧ Ev.dropped ∉ s.log ∧ s.send = .used := ⟨_, rfl, by decide⟩

/-- C30. The value is there for the next poll, which gives the result. -/
theorem C30_next_poll_ready (h : Reachable lift s) {n : Nat} (hp : Ev.pending n ∈ s.log)
    (hlast : Ev.polled (n + 1) ∉ s.log) (hd : Ev.dropped ∉ s.log) (hs : s.send = .used) :
    ∃ v s', Ev.completed v ∈ s.log ∧
      ForeignFuture.run lift s [.poll, .rust, .rust, .rust] = some s' ∧
      Ev.ready (n + 1) (lift v) ∈ s'.log := by
  have hw := waiting_of_log h hp hlast hd
  have i := h.inv
  obtain ⟨v, hv⟩ := Option.isSome_iff_exists.1 (i.kept (by simp [hs, SendPc.stored]) ⟨n, .inr hw⟩)
  obtain ⟨s', hs'⟩ : ∃ s', ForeignFuture.run lift s [.poll, .rust, .rust, .rust] = some s' := by
    simp [ForeignFuture.run, ForeignFuture.step, hw, hv, St.add, St.touch]
  refine ⟨v, s', i.value v hv, hs', ?_⟩
  simp [ForeignFuture.run, ForeignFuture.step, hw, hv, St.add, St.touch] at hs'
  rw [← hs']
  simp

/-- C30. Once the value is in the channel no poll returns `Pending`, whatever happens. -/
theorem C30_never_pending_again (h : Reachable lift s)
    (hs : s.send = .used ∨ s.send = .drop ∨ ∃ w, s.send = .wake w) (as : List (Act T))
    (e : ForeignFuture.run lift s as = some s') (n : Nat) (hp : Ev.pending n ∈ s'.log) :
    Ev.pending n ∈ s.log := by
  have i := h.inv
  replace hs : s.send.stored = true := by
    rcases hs with h | h | ⟨w, h⟩ <;> rw [h] <;> rfl
  clear h
  induction as generalizing s with
  | nil => simp only [ForeignFuture.run, Option.some.injEq] at e; exact e ▸ hp
  | cons a as ih =>
    simp only [ForeignFuture.run, Option.bind_eq_some_iff] at e
    obtain ⟨s₁, e₁, e₂⟩ := e
    have i₁ := i.step e₁
    have hk := i.kept hs
    have hm := i.made
    have : s₁.send.stored = true ∧ (Ev.pending n ∈ s₁.log → Ev.pending n ∈ s.log) := by
      clear ih e₂ i i₁ hp
      unfold ForeignFuture.step at e₁
      simp only [St.add, St.touch, St.dropArc] at e₁
      grind [SendPc.stored, RustPc.madeOk, SendPc.made]
    exact this.2 (ih e₂ i₁ this.1)

/-- C30. At most one waker is ever woken, once, after the foreign side reported; it is the waker of
a poll that returned `Pending`. -/
theorem C30_woken_once (h : Reachable lift s) :
    times Ev.isWoke s ≤ 1 ∧
    ∀ n, Ev.woke n ∈ s.log → Ev.pending n ∈ s.log ∧ ∃ v, Ev.completed v ∈ s.log := by
  have i := h.inv
  have hw := i.nWoke
  refine ⟨?_, fun n hn => ⟨i.wokePending n hn, ?_⟩⟩
  · rw [times_eq]
    generalize s.log.countP Ev.isWoke = k at *
    cases hr : s.send <;> rw [hr] at hw <;> simp only [SendPc.wokeOk] at hw <;> omega
  · have pos := countP_pos_of (p := Ev.isWoke) hn rfl
    have : s.send.begun = true := by
      cases hr : s.send <;> rw [hr] at hw <;> simp only [SendPc.wokeOk] at hw <;> first | omega | rfl
    have hc := i.nCompleted
    rw [this] at hc
    have : 0 < s.log.countP Ev.isCompleted := by rw [hc]; decide
    obtain ⟨e, he, hp⟩ := List.countP_pos_iff.1 this
    cases e with
    | completed v => exact ⟨v, he⟩
    | _ => cases hp

/-! ### C31 -/

/-- C31. The foreign method is called at most once, by the first poll, and a result means it was
called. -/
theorem C31_called_once (h : Reachable lift s) :
    times Ev.isCalled s ≤ 1 ∧ (Ev.called ∈ s.log → Ev.polled 0 ∈ s.log) ∧
    (∀ v, Ev.completed v ∈ s.log → Ev.called ∈ s.log) := by
  have i := h.inv
  refine ⟨?_, ?_, ?_⟩
  · rw [times_eq, i.nCalled]; unfold b2n; split <;> omega
  · exact fun hc => i.callPolled (.inl hc)
  · intro v hv
    have pos := countP_pos_of (p := Ev.isCompleted) hv rfl
    have : s.send.made = true := by
      have hc := i.nCompleted
      cases hr : s.send <;> rw [hr] at hc <;> simp [SendPc.begun, b2n] at hc <;>
        first | rfl | (exact absurd (hc _ hv) (by simp [Ev.isCompleted]))
    have hc := i.nCalled
    rw [this] at hc
    have : 0 < s.log.countP Ev.isCalled := by rw [hc]; decide
    obtain ⟨e, he, hp⟩ := List.countP_pos_iff.1 this
    cases e with
    | called => exact he
    | _ => cases hp

/-- C31. The foreign "dropped" callback runs at most once; only if the method was called; only
when the result was taken or the Rust future was dropped; and it has run once the future gave its
result or is dropped, if the method was called. -/
theorem C31_dropped_callback (h : Reachable lift s) :
    times Ev.isDroppedCallback s ≤ 1 ∧
    (Ev.droppedCallback ∈ s.log → Ev.called ∈ s.log ∧
      (Ev.dropped ∈ s.log ∨ ∃ n u, Ev.ready n u ∈ s.log)) ∧
    (Quiet s → Ev.called ∈ s.log → (Ev.dropped ∈ s.log ∨ ∃ n u, Ev.ready n u ∈ s.log) →
      times Ev.isDroppedCallback s = 1) := by
  have i := h.inv
  have mem : ∀ {p : Ev T U → Bool}, 0 < s.log.countP p → ∃ e ∈ s.log, p e = true :=
    fun h => List.countP_pos_iff.1 h
  refine ⟨?_, ?_, ?_⟩
  · rw [times_eq, i.nCallback]
    cases s.rust <;> simp only [RustPc.callbackRan, b2n] <;> (try split) <;> omega
  · intro hd
    have pos := countP_pos_of (p := Ev.isDroppedCallback) hd rfl
    have hm : s.send.made = true := by
      have hc := i.nCallback
      have hm := i.made
      cases hr : s.rust <;> simp only [hr, RustPc.callbackRan, RustPc.madeOk] at hc hm <;>
        first | exact hm | omega | skip
      unfold b2n at hc; split at hc
      · assumption
      · omega
    constructor
    · obtain ⟨e, he, hp⟩ := mem (p := Ev.isCalled) (by rw [i.nCalled, hm]; decide)
      cases e with
      | called => exact he
      | _ => cases hp
    · have hc := i.nCallback
      have hr' := i.nReady
      have hd' := i.nDropped
      cases hr : s.rust <;>
        simp only [hr, RustPc.callbackRan, RustPc.readyOk, RustPc.droppedN] at hc hr' hd' <;>
        try omega
      · right
        obtain ⟨e, he, hp⟩ := mem (p := Ev.isReady) (by omega)
        cases e with
        | ready n u => exact ⟨n, u, he⟩
        | _ => cases hp
      · left
        obtain ⟨e, he, hp⟩ := mem (p := Ev.isDropped) (by omega)
        cases e with
        | dropped => exact he
        | _ => cases hp
  · intro hq hc hd
    rw [times_eq, i.nCallback]
    have pos := countP_pos_of (p := Ev.isCalled) hc rfl
    have hm : s.send.made = true := by
      have := i.nCalled
      unfold b2n at this; split at this
      · assumption
      · omega
    have hdone : s.rust = .done ∨ s.rust = .gone := by
      rcases hq.1 with hr | ⟨n, hr⟩ | hr | hr
      · have h1 := i.nReady; have h2 := i.nDropped
        simp only [hr, RustPc.readyOk, RustPc.droppedN] at h1 h2
        rcases hd with hd | ⟨n, u, hd⟩
        · have := countP_pos_of (p := Ev.isDropped) hd rfl; omega
        · have := countP_pos_of (p := Ev.isReady) hd rfl; omega
      · have h1 := i.nReady; have h2 := i.nDropped
        simp only [hr, RustPc.readyOk, RustPc.droppedN] at h1 h2
        rcases hd with hd | ⟨n, u, hd⟩
        · have := countP_pos_of (p := Ev.isDropped) hd rfl; omega
        · have := countP_pos_of (p := Ev.isReady) hd rfl; omega
      · exact .inl hr
      · exact .inr hr
    rcases hdone with hr | hr <;> simp [hr, RustPc.callbackRan, hm, b2n]

/-- C31. The channel is never used after it was released, and it is released exactly once: when the
completion call returned and the Rust future gave its result or was dropped. -/
theorem C31_channel_released (h : Reachable lift s) :
    s.ub = false ∧ times Ev.isReleased s ≤ 1 ∧
    (Ev.released ∈ s.log → s.send = .used) ∧
    (Quiet s → (times Ev.isReleased s = 1 ↔
      s.send = .used ∧ (Ev.dropped ∈ s.log ∨ ∃ n u, Ev.ready n u ∈ s.log))) := by
  have i := h.inv
  have hn := i.nReleased
  have mem : ∀ {p : Ev T U → Bool}, 0 < s.log.countP p → ∃ e ∈ s.log, p e = true :=
    fun h => List.countP_pos_iff.1 h
  refine ⟨i.ub, ?_, ?_, ?_⟩
  · rw [times_eq, hn]; unfold b2n; split <;> omega
  · intro hr
    have pos := countP_pos_of (p := Ev.isReleased) hr rfl
    have ha := i.arcs
    cases hs : s.send <;> simp only [hs, SendPc.made, SendPc.arcs, b2n] at hn ha <;>
      first | rfl | (simp at hn; exact absurd (hn _ hr) (by simp [Ev.isReleased])) |
        (have : (s.count == 0) = false := by simp; omega
         rw [this] at hn; simp only [Bool.and_false, Bool.false_eq_true, if_false] at hn; omega)
  · intro hq
    rw [times_eq, hn]
    have ha := i.arcs
    have hm := i.made
    have h1 := i.nReady
    have h2 := i.nDropped
    constructor
    · intro hb
      have hcm : s.send.made = true ∧ s.count = 0 := by
        unfold b2n at hb; split at hb
        · rename_i h; simpa using h
        · omega
      obtain ⟨hmade, hc⟩ := hcm
      have hu : s.send = .used := by
        rcases hq.2 with h | h | h
        · simp [h, SendPc.made] at hmade
        · simp only [h, SendPc.arcs] at ha; omega
        · exact h
      refine ⟨hu, ?_⟩
      rcases hq.1 with hr | ⟨n, hr⟩ | hr | hr
      · simp [hr, RustPc.madeOk, hmade] at hm
      · simp only [hr, RustPc.arcs] at ha; omega
      · simp only [hr, RustPc.readyOk] at h1
        obtain ⟨e, he, hp⟩ := mem (p := Ev.isReady) (by omega)
        cases e with
        | ready n u => exact .inr ⟨n, u, he⟩
        | _ => cases hp
      · simp only [hr, RustPc.droppedN] at h2
        obtain ⟨e, he, hp⟩ := mem (p := Ev.isDropped) (by omega)
        cases e with
        | dropped => exact .inl he
        | _ => cases hp
    · rintro ⟨hu, hd⟩
      have : s.rust.arcs = 0 := by
        rcases hq.1 with hr | ⟨n, hr⟩ | hr | hr
        · simp [hr, RustPc.arcs]
        · simp only [hr, RustPc.readyOk, RustPc.droppedN] at h1 h2
          rcases hd with hd | ⟨n, u, hd⟩
          · have := countP_pos_of (p := Ev.isDropped) hd rfl; omega
          · have := countP_pos_of (p := Ev.isReady) hd rfl; omega
        · simp [hr, RustPc.arcs]
        · simp [hr, RustPc.arcs]
      simp [ha, this, hu, SendPc.arcs, SendPc.made, b2n]

/-- C31. What the contract costs: as long as the foreign side does not call the completion
callback the channel stays allocated, whatever Rust does. -/
theorem C31_not_completed_not_released (h : Reachable lift s) (hs : s.send = .held) :
    Ev.released ∉ s.log := fun hr => by
  have := (C31_channel_released h).2.2.1 hr
  rw [hs] at this; cases this

example : ∃ s, ForeignFuture.run (fun n : Nat => n) {} [.poll, .rust, .rust, .drop, .rust, .rust] =
    some s ∧ s.send = .held ∧ Ev.dropped ∈ s.log := ⟨_, rfl, by decide⟩

/-! ### C31: what the foreign side reports -/

/-- What a report says about how the method ended. -/
inductive Says {V E X : Type} (lower : V → Option X) (lowerError : E → Option Bytes)
    (throws : Bool) : Ended V E → Report X → Prop
  | returned {v x} (b : Bytes) : lower v = some x → Says lower lowerError throws (.returned v)
      ⟨x, .success, b⟩
  | threw {e b} (x : X) : throws = true → lowerError e = some b →
      Says lower lowerError throws (.threw e) ⟨x, .error, b⟩
  | other {msg} (x : X) : Says lower lowerError throws (.other msg)
      ⟨x, .unexpected, Wire.utf8 msg⟩
  /-- The method broke its contract, or was cancelled. -/
  | broken {o} (x : X) (b : Bytes) :
      (∃ v, o = .returned v ∧ lower v = none) ∨ (∃ e, o = .threw e ∧ throws = false) ∨
      (∃ e, o = .threw e ∧ lowerError e = none) ∨ o = .cancelled →
      Says lower lowerError throws o ⟨x, .unexpected, b⟩

section
variable {V E X : Type} (dflt : X) (lower : V → Option X) (lowerError : E → Option Bytes)
  (text : String) (throws claimed : Bool) (o : Ended V E)

/-- C31. Whatever the method does, the completion callback is called at most once, with a report
that says how the method ended. -/
theorem C31_reports : 
    ∀ l ∈ [pythonReports dflt lower lowerError text throws o,
      kotlinReports dflt lower lowerError text throws o,
      swiftReports dflt lower lowerError text throws o,
      rubyReports dflt lower lowerError text throws claimed o],
    l.length ≤ 1 ∧ ∀ r ∈ l, Says lower lowerError throws o r := by
  intro l hl
  simp only [List.mem_cons, List.not_mem_nil, or_false] at hl
  rcases hl with rfl | rfl | rfl | rfl <;> cases o <;>
    simp only [pythonReports, kotlinReports, swiftReports, rubyReports, success, ForeignFuture.failure] <;>
    (repeat' split) <;> simp_all <;>
    first
      | exact .returned _ (by assumption)
      | exact .threw _ (by first | rfl | assumption) (by assumption)
      | exact .other _
      | exact .broken _ _ (by simp_all)

/-- C31. The completion callback is called exactly once if the method keeps its contract: what it
returns, or throws as declared, can be lowered; it is not cancelled; and in Ruby, the Rust future
is not dropped before. The full statement, without the condition on lowering, fails: see
`C31_python_hangs` and `C31_kotlin_hangs`. -/
theorem C31_reports_once_partial (hv : ∀ v, o = .returned v → (lower v).isSome)
    (he : ∀ e, o = .threw e → throws = true → (lowerError e).isSome) (hc : o ≠ .cancelled) :
    (pythonReports dflt lower lowerError text throws o).length = 1 ∧
    (kotlinReports dflt lower lowerError text throws o).length = 1 ∧
    (swiftReports dflt lower lowerError text throws o).length = 1 ∧
    (rubyReports dflt lower lowerError text throws false o).length = 1 := by
  refine ⟨?_, ?_, ?_, ?_⟩ <;> cases o <;>
    simp only [pythonReports, kotlinReports, swiftReports, rubyReports] <;>
    (repeat' split) <;> simp_all

/-- C31. Python with a declared error, and Ruby, report exactly once without the condition on
lowering. -/
theorem C31_reports_once_python_ruby (hc : o ≠ .cancelled) :
    (pythonReports dflt lower lowerError text true o).length = 1 ∧
    (rubyReports dflt lower lowerError text throws false o).length = 1 := by
  refine ⟨?_, ?_⟩ <;> cases o <;>
    simp only [pythonReports, rubyReports] <;> (repeat' split) <;> simp_all

/-- C31. A Python method without declared error that returns a value that cannot be lowered never
completes the call: Rust waits forever. -/
theorem C31_python_hangs (v : V) (h : lower v = none) :
    pythonReports dflt lower lowerError text false (.returned v) = [] := by
  simp [pythonReports, h]

/-- C31. The same in Kotlin, with or without a declared error, and for a declared error that cannot
be lowered. -/
theorem C31_kotlin_hangs :
    (∀ v, lower v = none → kotlinReports dflt lower lowerError text throws (.returned v) = []) ∧
    (∀ e, lowerError e = none → kotlinReports dflt lower lowerError text true (.threw e) = []) := by
  refine ⟨?_, ?_⟩ <;> intros <;> simp_all [kotlinReports]

end

/-- A `u8` that does not fit, in Python. -/
example : Call.flower Wire.Python.lang (fun _ => none) 3 (.int .u8) (.int 300) = none := by decide

section
open Verif.Call Verif.Wire
variable (L : Lang) (env : Env) (fuel : Nat) (ret throws : Option Ty) (text : ReadErr → String)
  (convert : Option (Unexpected → Val)) (badText : String) (c : Bool) (dflt : Ffi)

/-- Lowering what an asynchronous method returns. -/
def lowerOf (v : Val) : Option Ffi :=
  match ret with
  | none => some .unit
  | some t => flower L env fuel t v

/-- Lowering the declared error. -/
def lowerErrorOf (e : Val) : Option Bytes :=
  match throws with
  | none => none
  | some t => fwrite L env fuel t e

/-- An asynchronous method that behaves like a synchronous one. -/
def endedOf : Impl → Ended Val Val
  | .returns v => .returned v
  | .throws e => .threw e
  | .other msg => .other msg

/-- C31. The result of awaiting an asynchronous foreign method is what a synchronous method that
behaves the same gives (C23), as soon as the foreign side reports. -/
theorem C31_same_as_sync (i : Impl)
    {s : St (Report Ffi) (Eff (Except Val (Option Val)))}
    (h : Reachable (fun r => liftForeignReturn (liftRetOf env fuel ret throws text convert) r.x
      r.code r.buf) s)
    (claimed : Bool)
    (hr : ∃ l ∈ [pythonReports dflt (lowerOf L env fuel ret) (lowerErrorOf L env fuel throws) badText
          throws.isSome (endedOf i),
        kotlinReports dflt (lowerOf L env fuel ret) (lowerErrorOf L env fuel throws) badText
          throws.isSome (endedOf i),
        swiftReports dflt (lowerOf L env fuel ret) (lowerErrorOf L env fuel throws) badText
          throws.isSome (endedOf i),
        rubyReports dflt (lowerOf L env fuel ret) (lowerErrorOf L env fuel throws) badText
          throws.isSome claimed (endedOf i)],
      ∀ r, Ev.completed r ∈ s.log → r ∈ l)
    (n : Nat) (u : Eff (Except Val (Option Val))) (hu : Ev.ready n u ∈ s.log) :
    u = callInto L env fuel ret throws text convert badText true dflt i := by
  obtain ⟨r, hc, rfl⟩ := (C30_at_most_once h).2.2 n u hu
  obtain ⟨l, hl, hm⟩ := hr
  have hr := hm r hc
  clear hm hc hu h
  simp only [List.mem_cons, List.not_mem_nil, or_false] at hl
  rcases hl with rfl | rfl | rfl | rfl <;> cases i <;> cases ret <;> cases throws <;>
    simp only [pythonReports, kotlinReports, swiftReports, rubyReports, endedOf, lowerOf,
      lowerErrorOf] at hr <;>
    (repeat' split at hr) <;> simp_all [callInto, implCall, success, ForeignFuture.failure]

end

end Verif.Props.ForeignFuture
