import Verif.Async.DriverLemmas
/-
C32: the generated await loops (Python, Kotlin, Swift), run against the future of C25-C29, for
every interleaving of the loop, the calls in progress, wakers used by other threads, and
cancellation.

`DReach d` ranges over all states of all executions. `d.ops` are the calls the loop made, in order,
`d.map` the continuation handle map, `d.st.sh.log` what happened to the future.
-/
namespace Verif.Props.Driver
open Verif Verif.Async

variable {R : Type} {d : D R}

/-! ### Executions as lists of commands, to show that states are reachable -/

inductive Cmd (R : Type) where
  /-- The loop goes on. -/
  | go
  /-- The task is cancelled. -/
  | cancel
  | waker (op : Op)
  | run (i : Nat) (outcome : Option R)

def doCmd (d : D R) : Cmd R → Option (D R)
  | .go => match d.pc with
    | .poll => (Async.start d.st .poll).map fun st' =>
        { d with
          st := st', pc := .suspended d.st.sh.nextCb, map := d.st.sh.nextCb :: d.map
          ops := d.ops ++ [.poll] }
    | .resumed p => some { d with pc := DPc.afterPoll p }
    | .complete => (Async.start d.st .complete).map fun st' =>
        { d with st := st', pc := .completing, ops := d.ops ++ [.complete] }
    | .cleanup out => (Async.start d.st .free).map fun st' =>
        { d with st := st', pc := .finished out, ops := d.ops ++ [.free] }
    | _ => none
  | .cancel => match d.pc with
    | .poll => some { d with pc := .cleanup none }
    | .suspended _ => some { d with pc := .cleanup none }
    | .resumed _ => some { d with pc := .cleanup none }
    | _ => none
  | .waker op => if op.ofWaker then
      (Async.start d.st op).bind fun st' => if st'.BorrowsLive then some { d with st := st' } else none
    else none
  | .run i o => match d.st.acts[i]? with
    | some pc => (Async.step o d.st.sh pc).bind fun r =>
      if (⟨r.2, d.st.acts.take i ++ r.1.toList ++ d.st.acts.drop (i + 1)⟩ : St R).BorrowsLive then
        some { d.notice d.st.sh pc with
          st := ⟨r.2, d.st.acts.take i ++ r.1.toList ++ d.st.acts.drop (i + 1)⟩ }
      else none
    | none => none

def doCmds (d : D R) : List (Cmd R) → Option (D R)
  | [] => some d
  | c :: cs => (doCmd d c).bind fun d => doCmds d cs

theorem doCmd_step {d d' : D R} {c : Cmd R} (h : doCmd d c = some d') : DStep d d' := by
  cases c with
  | go =>
    simp only [doCmd] at h
    split at h <;> simp only [Option.map_eq_some_iff, Option.some.injEq, reduceCtorEq] at h
    · obtain ⟨st', h1, rfl⟩ := h; exact .poll _ _ (by assumption) h1
    · subst h; exact .resume _ _ (by assumption)
    · obtain ⟨st', h1, rfl⟩ := h; exact .complete _ _ (by assumption) h1
    · obtain ⟨st', h1, rfl⟩ := h; exact .free _ _ _ (by assumption) h1
  | cancel =>
    simp only [doCmd] at h
    split at h <;> simp only [Option.some.injEq, reduceCtorEq] at h <;> subst h <;>
      exact .cancel _ (by simp_all)
  | waker op =>
    simp only [doCmd] at h
    split at h
    · simp only [Option.bind_eq_some_iff] at h
      obtain ⟨st', h1, h2⟩ := h
      split at h2
      · cases h2; exact .waker _ op _ (by assumption) h1 (by assumption)
      · cases h2
    · cases h
  | run i o =>
    simp only [doCmd] at h
    split at h
    · rename_i pc hpc
      simp only [Option.bind_eq_some_iff] at h
      obtain ⟨⟨pc', sh'⟩, h1, h2⟩ := h
      split at h2
      · cases h2
        refine .run d _ _ pc o sh' pc' ?_ h1 (by assumption)
        have hi := (List.getElem?_eq_some_iff.1 hpc).1
        conv => lhs; rw [← List.take_append_drop i d.st.acts]
        rw [List.drop_eq_getElem_cons hi, (List.getElem?_eq_some_iff.1 hpc).2]
      · cases h2
    · cases h

theorem doCmds_reach {d d' : D R} {cs : List (Cmd R)} (hd : DReach d) (h : doCmds d cs = some d') :
    DReach d' := by
  induction cs generalizing d with
  | nil => simp only [doCmds, Option.some.injEq] at h; exact h ▸ hd
  | cons c cs ih =>
    simp only [doCmds, Option.bind_eq_some_iff] at h
    obtain ⟨d₁, h1, h2⟩ := h
    exact ih (.step _ _ hd (doCmd_step h1)) h2

/-- A future that is pending once, is woken from elsewhere, then finishes with 7. -/
def demo : List (Cmd Nat) :=
  [.go, .run 0 none, .run 0 none, .run 0 none, .waker .wakerClone, .run 0 none, .run 0 none, .run 0 none,
    .run 0 none, .run 0 none, .waker .wakerWake, .run 0 none, .run 0 none, .run 0 none,
    .go, .go, .run 0 none, .run 0 none, .run 0 none, .run 0 (some 7), .run 0 none, .run 0 none,
    .run 0 none, .run 0 none, .go, .go, .run 0 none, .run 0 none, .run 0 none, .run 0 none,
    .go, .run 0 none, .run 0 none, .run 0 none, .run 0 none, .run 0 none]

example : ∃ d : D Nat, DReach d ∧ d.pc = .finished (some (some 7)) ∧ d.st.acts = [] ∧ d.map = [] ∧
    d.ops = [.poll, .poll, .complete, .free] ∧ d.st.sh.log =
      [.started 0, .innerPoll 0, .woke, .invoked 0 .wake, .started 1, .innerPoll 1, .innerReady 7,
        .innerDropped, .invoked 1 .ready, .completed (some 7), .cancelled, .freed, .released] := by
  refine ⟨_, doCmds_reach (cs := demo) .init rfl, ?_⟩
  decide

/-- The task is cancelled while the continuation is parked; free calls the continuation. -/
def demoCancel : List (Cmd Nat) :=
  [.go, .run 0 none, .run 0 none, .run 0 none, .run 0 none, .run 0 none, .run 0 none, .run 0 none,
    .run 0 none, .cancel, .go, .run 0 none, .run 0 none, .run 0 none, .run 0 none, .run 0 none, .run 0 none]

example : ∃ d : D Nat, DReach d ∧ d.pc = .finished none ∧ d.st.acts = [] ∧ d.map = [] ∧
    d.ops = [.poll, .free] ∧ d.st.sh.log = [.started 0, .innerPoll 0, .cancelled,
      .invoked 0 .ready, .innerDropped, .freed, .released] := by
  refine ⟨_, doCmds_reach (cs := demoCancel) .init rfl, ?_⟩
  decide

/-! ### C32 -/

/-- C32. The loop polls only when all its earlier continuations were called: it is one of the
foreign sides C26 is about. -/
theorem C32_disciplined (h : DReach d) : Disciplined d.st := h.j.disc

/-- The calls the loop makes: some polls, complete at most once, then free. -/
inductive Protocol : List Op → Prop
  | polls (n : Nat) : Protocol (List.replicate n .poll)
  | completed (n : Nat) : Protocol (List.replicate n .poll ++ [.complete])
  | freed {ops : List Op} : Op.free ∉ ops → Protocol ops → Protocol (ops ++ [.free])

/-- C32. The calls follow the protocol; free is called exactly once, last, when the loop ends in
whatever way. -/
theorem C32_protocol (h : DReach d) :
    Protocol d.ops ∧ ((∃ out, d.pc = .finished out) ↔ Op.free ∈ d.ops) ∧
    d.ops.count .free ≤ 1 ∧ d.ops.count .complete ≤ 1 := by
  have ho := h.j.ops
  have hr : ∀ n, Op.free ∉ List.replicate n Op.poll := fun n => by simp [List.mem_replicate]
  have hrc : ∀ n, (List.replicate n Op.poll).count Op.free = 0 := fun n =>
    List.count_eq_zero.2 (hr n)
  have hrc' : ∀ n, (List.replicate n Op.poll).count Op.complete = 0 := fun n =>
    List.count_eq_zero.2 (by simp [List.mem_replicate])
  cases hp : d.pc with
  | completing =>
    rw [hp] at ho; simp only [DPc.after] at ho
    rw [ho]
    refine ⟨.completed _, by simp, by simp [hrc, hrc']⟩
  | cleanup out =>
    rw [hp] at ho
    cases out <;> simp only [DPc.after] at ho <;> rw [ho]
    · rw [List.append_nil]; exact ⟨.polls _, by simp, by simp [hrc, hrc']⟩
    · exact ⟨.completed _, by simp, by simp [hrc, hrc']⟩
  | finished out =>
    rw [hp] at ho
    cases out <;> simp only [DPc.after] at ho <;> rw [ho]
    · exact ⟨.freed (hr _) (.polls _), by simp, by simp [hrc, hrc']⟩
    · rw [show ∀ n, List.replicate n Op.poll ++ [Op.complete, Op.free] =
          List.replicate n Op.poll ++ [Op.complete] ++ [Op.free] by simp]
      exact ⟨.freed (by simp) (.completed _), by simp, by simp [hrc, hrc']⟩
  | _ =>
    rw [hp] at ho; simp only [DPc.after, List.append_nil] at ho
    rw [ho]
    exact ⟨.polls _, by simp, by simp [hrc, hrc']⟩

/-- C32. Every call the loop is about to make can be made: it never uses the handle after free. -/
theorem C32_never_stuck (h : DReach d) :
    (d.pc = .poll → (Async.start d.st .poll).isSome = true) ∧
    (d.pc = .complete → (Async.start d.st .complete).isSome = true) ∧
    (∀ out, d.pc = .cleanup out → (Async.start d.st .free).isSome = true) := by
  have hh := h.j.handle
  refine ⟨?_, ?_, ?_⟩
  · intro hp; simp [Async.start, hh, hp, DPc.isFinished]
  · intro hp; simp [Async.start, hh, hp, DPc.isFinished]
  · intro out hp; simp [Async.start, hh, hp, DPc.isFinished]

/-- C32. At most one continuation is outstanding, at any time: handed to poll and not called. The
handle map holds exactly the outstanding one, once. -/
theorem C32_one_outstanding (h : DReach d) :
    (∀ a b, Ev.started a ∈ d.st.sh.log → Ev.started b ∈ d.st.sh.log →
      Props.Async.timesCalled a d.st.sh.log = 0 → Props.Async.timesCalled b d.st.sh.log = 0 → a = b) ∧
    (∀ cb, cb ∈ d.map ↔ Ev.started cb ∈ d.st.sh.log ∧ Props.Async.timesCalled cb d.st.sh.log = 0) ∧
    d.map.length ≤ 1 := by
  have j := h.j
  have hs := j.disc.reachable.facts.1.started
  have hold := j.disc.oneAtATime.old
  have huniq : ∀ a b, a < d.st.sh.nextCb → b < d.st.sh.nextCb → calls a d.st.sh.log = 0 →
      calls b d.st.sh.log = 0 → a = b := by
    intro a b ha hb ha' hb'
    have h1 : ¬ a + 1 < d.st.sh.nextCb := fun h => by have := hold a h; omega
    have h2 : ¬ b + 1 < d.st.sh.nextCb := fun h => by have := hold b h; omega
    omega
  simp only [Props.Async.timesCalled_eq, hs]
  refine ⟨huniq, j.map, ?_⟩
  have hm := j.map
  have hn := j.nodup
  match hmap : d.map with
  | [] => simp
  | [_] => simp
  | a :: b :: l =>
    rw [hmap] at hm hn
    have ha := (hm a).1 (by simp)
    have hb := (hm b).1 (by simp)
    have := huniq a b ha.1 hb.1 ha.2 hb.2
    simp [this] at hn

/-- C32. Every continuation callback finds its handle in the map. -/
theorem C32_handle_found (h : DReach d) : d.bad = false := h.j.bad

/-- Once free was started, the future was cancelled or a call that will do so is in progress. -/
theorem freed_cancels {d : D R} (hd : DReach d) : d.st.sh.handle = false →
    Ev.cancelled ∈ d.st.sh.log ∨ 0 < total Pc.cancels d.st.acts := by
  induction hd with
  | init => intro h; cases h
  | step d d' hd hs ih =>
    intro hf
    cases hs with
    | poll st' _ h =>
      simp only [Async.start] at h
      split at h <;> simp only [Option.some.injEq, reduceCtorEq] at h
      subst h; simp_all [Shared.touch, Shared.add]
    | resume => exact ih hf
    | cancel => exact ih hf
    | complete st' _ h =>
      simp only [Async.start] at h
      split at h <;> simp only [Option.some.injEq, reduceCtorEq] at h
      subst h; simp_all [Shared.touch]
    | free out st' _ h =>
      simp only [Async.start] at h
      split at h <;> simp only [Option.some.injEq, reduceCtorEq] at h
      subst h; right; simp [Pc.cancels]
    | waker op st' ho h _ =>
      cases op <;> simp [Op.ofWaker] at ho <;> simp only [Async.start] at h <;> split at h <;>
        simp only [Option.some.injEq, reduceCtorEq] at h <;> subst h <;>
        simp_all [Shared.touch, Pc.cancels]
    | run l₁ l₂ pc o sh' pc' hacts h hb =>
      obtain ⟨_, _, c3, c4, _, _, c7⟩ := step_counts h
      obtain ⟨evs, hevs⟩ := step_log h
      have hf : sh'.handle = false := hf
      rw [c7] at hf
      show Ev.cancelled ∈ sh'.log ∨ 0 < total Pc.cancels (l₁ ++ pc'.toList ++ l₂)
      rcases ih hf with h1 | h1
      · left; rw [hevs]; simp [h1]
      · rw [hacts] at h1
        by_cases hk : ∃ f, pc = .cancel f
        · obtain ⟨f, rfl⟩ := hk
          left
          simp only [Async.step, Option.some.injEq, Prod.mk.injEq] at h
          rw [← h.2]; simp [Shared.add]
        · right
          have : pc.cancels = 0 := by
            cases pc <;> first | rfl | exact absurd ⟨_, rfl⟩ hk
          simp only [total_append, total_cons, this] at h1 ⊢
          omega

/-- C32. When the loop ended and no call is in progress, the map is empty: every continuation was
removed. -/
theorem C32_map_empty (h : DReach d) (out : Option (Option R)) (hp : d.pc = .finished out)
    (hq : d.st.acts = []) : d.map = [] := by
  have j := h.j
  have hc : Ev.cancelled ∈ d.st.sh.log := by
    have hh := j.handle
    rw [hp] at hh
    rcases freed_cancels h (by rw [hh]; rfl) with h1 | h1
    · exact h1
    · rw [hq] at h1; simp at h1
  have hex := Props.Async.C25_exactly_once j.disc.reachable
  apply List.eq_nil_iff_forall_not_mem.2
  intro cb hcb
  have := ((C32_one_outstanding h).2.1 cb).1 hcb
  have := hex cb this.1 hc hq
  omega

/-- C32. Complete is called only after a continuation was told Ready. -/
theorem C32_complete_after_ready (h : DReach d) (hc : Op.complete ∈ d.ops) :
    ∃ cb, Ev.invoked cb .ready ∈ d.st.sh.log := by
  have j := h.j
  apply j.seen
  have ho := j.ops
  rw [ho] at hc
  simp only [List.mem_append, List.mem_replicate, reduceCtorEq, and_false, false_or] at hc
  cases hp : d.pc with
  | resumed p => rw [hp] at hc; simp [DPc.after] at hc
  | cleanup o => rw [hp] at hc; cases o <;> simp [DPc.after] at hc; rfl
  | finished o => rw [hp] at hc; cases o <;> simp [DPc.after] at hc; rfl
  | completing => rfl
  | complete => rfl
  | _ => rw [hp] at hc; simp [DPc.after] at hc

/-- C32. The await gives what the future finished with: if the loop ends without an exception, what
it got is the result of the user's future, never "cancelled". -/
theorem C32_result (h : DReach d) (o : Option R) (hp : d.pc = .finished (some o)) :
    ∃ r, o = some r ∧ Ev.innerReady r ∈ d.st.sh.log := by
  have := h.j.compl
  rw [hp] at this
  obtain ⟨_, _, r, h1, h2, _⟩ := this
  exact ⟨r, h1, h2⟩

/-- C32. Nothing is left behind: once the loop ended, no call is in progress and user code holds no
waker, the future object was released, exactly once. -/
theorem C32_released (h : DReach d) (out : Option (Option R)) (hp : d.pc = .finished out)
    (hq : d.st.acts = []) (hw : d.st.sh.wakers = 0) :
    Props.Async.timesReleased d.st.sh.log = 1 := by
  refine (Props.Async.C29_released h.j.disc.reachable).2.2 ⟨?_, hw, hq⟩
  rw [h.j.handle, hp]; rfl

/-- C32. The loop does not sleep through a wake: if it waits for `cb` and no call is in progress,
then no waker fired since that poll began. -/
theorem C32_no_missed_wake (h : DReach d) (cb : Nat) (hp : d.pc = .suspended cb)
    (hq : d.st.acts = []) (pre post : List (Ev R)) (hl : d.st.sh.log = pre ++ .started cb :: post) :
    Ev.woke ∉ post := by
  intro hw
  have := Props.Async.C26_no_lost_wakeup (C32_disciplined h) cb pre post hl hw (.refl _) hq
  have hc := h.j.called
  rw [hp] at hc
  rw [Props.Async.timesCalled_eq, hc.2] at this
  cases this

/-- A loop waiting, with no call in progress. -/
example : ∃ d : D Nat, DReach d ∧ d.pc = .suspended 0 ∧ d.st.acts = [] ∧ d.map = [0] := by
  refine ⟨_, doCmds_reach (cs := [.go, .run 0 none, .run 0 none, .run 0 none, .run 0 none,
    .run 0 none, .run 0 none, .run 0 none, .run 0 none]) .init rfl, ?_⟩
  decide

end Verif.Props.Driver
