import Verif.Async.WakeLemmas
/-
C25-C29: Rust futures driven by foreign code, for every interleaving of any number of calls.

What happens is read off the log of events (`Ev`), oldest first. `Reachable s` ranges over all
states of all executions; `s.acts` are the calls in progress.
-/
namespace Verif.Props.Async
open Verif Verif.Async

variable {R : Type}

/-! ### Specification vocabulary -/

/-- How often the continuation `cb` was called. -/
def timesCalled (cb : Nat) (log : List (Ev R)) : Nat :=
  (log.filter fun | .invoked c _ => c == cb | _ => false).length

theorem timesCalled_eq (cb : Nat) (log : List (Ev R)) : timesCalled cb log = calls cb log := by
  induction log with
  | nil => rfl
  | cons e l ih =>
    cases e with
    | invoked c p =>
      by_cases h : c = cb
      · simp [timesCalled, calls, h] at ih ⊢; omega
      · simp [timesCalled, calls, h] at ih ⊢; omega
    | _ => simpa [timesCalled, calls] using ih

theorem mem_of_calls {cb : Nat} {log : List (Ev R)} (h : 0 < calls cb log) :
    ∃ p, Ev.invoked cb p ∈ log := by
  induction log with
  | nil => simp [calls] at h
  | cons e l ih =>
    cases e with
    | invoked c p =>
      by_cases hc : c = cb
      · exact ⟨p, by simp [hc]⟩
      · obtain ⟨p', hp⟩ := ih (by simpa [calls, hc] using h)
        exact ⟨p', by simp [hp]⟩
    | _ =>
      obtain ⟨p', hp⟩ := ih (by simpa [calls] using h)
      exact ⟨p', by simp [hp]⟩

/-! ### Executions as lists of commands, to show that states are reachable -/

instance (s : St R) : Decidable s.BorrowsLive := by unfold St.BorrowsLive; infer_instance

/-- Start a call, or let the call at some position take a step. -/
inductive Cmd (R : Type) where
  | start (op : Op)
  | run (i : Nat) (outcome : Option R)

/-- Execute a command. -/
def doCmd (s : St R) : Cmd R → Option (St R)
  | .start op => match Async.start s op with
    | some s' => if s'.BorrowsLive then some s' else none
    | none => none
  | .run i o => match s.acts[i]? with
    | some pc => match Async.step o s.sh pc with
      | some (pc', sh') =>
        if (⟨sh', s.acts.take i ++ pc'.toList ++ s.acts.drop (i + 1)⟩ : St R).BorrowsLive then
          some ⟨sh', s.acts.take i ++ pc'.toList ++ s.acts.drop (i + 1)⟩
        else none
      | none => none
    | none => none

/-- Execute commands. -/
def doCmds (s : St R) : List (Cmd R) → Option (St R)
  | [] => some s
  | c :: cs => match doCmd s c with
    | some s' => doCmds s' cs
    | none => none

theorem doCmd_step {s s' : St R} {c : Cmd R} (h : doCmd s c = some s') : Step s s' := by
  cases c with
  | start op =>
    simp only [doCmd] at h
    split at h
    · split at h
      · cases h; rename_i h1 h2; exact .start _ _ op h1 h2
      · cases h
    · cases h
  | run i o =>
    simp only [doCmd] at h
    split at h
    · rename_i pc hpc
      split at h
      · split at h
        · cases h
          rename_i pc' sh' h1 h2
          refine .run _ _ ?_
          have hi := (List.getElem?_eq_some_iff.1 hpc).1
          have hs : s = ⟨s.sh, s.acts.take i ++ pc :: s.acts.drop (i + 1)⟩ := by
            have : s.acts = s.acts.take i ++ pc :: s.acts.drop (i + 1) := by
              conv => lhs; rw [← List.take_append_drop i s.acts]
              rw [List.drop_eq_getElem_cons hi]
              have := (List.getElem?_eq_some_iff.1 hpc).2
              rw [this]
            conv => lhs; rw [show s = ⟨s.sh, s.acts⟩ from rfl, this]
          have := Run.mk (s.acts.take i) (s.acts.drop (i + 1)) pc o s.sh sh' pc' h1 h2
          rwa [← hs] at this
        · cases h
      · cases h
    · cases h

theorem doCmds_steps {s s' : St R} {cs : List (Cmd R)} (h : doCmds s cs = some s') :
    Steps s s' := by
  induction cs generalizing s with
  | nil => simp only [doCmds, Option.some.injEq] at h; subst h; exact .refl _
  | cons c cs ih =>
    simp only [doCmds] at h
    split at h
    · rename_i s₁ h1
      exact Steps.trans (.tail _ _ _ (.refl _) (doCmd_step h1)) (ih h)
    · cases h

/-! ### C25 -/

/-- C25. Whatever the interleaving, no continuation is called twice. -/
theorem C25_at_most_once {s : St R} (h : Reachable s) (cb : Nat) :
    timesCalled cb s.sh.log ≤ 1 := by
  rw [timesCalled_eq]
  have := h.inv.token cb
  split at this <;> omega

/-- C25. Only continuations handed to poll are called. -/
theorem C25_only_given {s : St R} (h : Reachable s) (cb : Nat)
    (hc : 0 < timesCalled cb s.sh.log) : Ev.started cb ∈ s.sh.log := by
  rw [timesCalled_eq] at hc
  have := h.inv.token cb
  apply (h.facts.1.started cb).2
  apply Decidable.byContradiction
  intro hn
  rw [if_neg hn] at this
  omega

/-- C25. Once the future was cancelled (or freed) and no call is in progress, every continuation
was called exactly once. -/
theorem C25_exactly_once {s : St R} (h : Reachable s) (cb : Nat) (hs : Ev.started cb ∈ s.sh.log)
    (hc : Ev.cancelled ∈ s.sh.log) (hq : s.acts = []) : timesCalled cb s.sh.log = 1 := by
  rw [timesCalled_eq]
  have := h.inv.token cb
  rw [if_pos ((h.facts.1.started cb).1 hs), (h.facts.1.cancelled).1 hc, hq] at this
  simpa [Sched.token] using this

/-- C25. Freeing counts as cancelling. -/
theorem C25_free_cancels {s : St R} (h : Reachable s) (hf : Ev.freed ∈ s.sh.log) :
    Ev.cancelled ∈ s.sh.log := h.facts.1.freed hf

/-- C25. A continuation that was handed in and not called is either with a call in progress, or
it is the only one parked. -/
theorem C25_one_parked {s : St R} (h : Reachable s) (hq : s.acts = []) (a b : Nat)
    (ha : Ev.started a ∈ s.sh.log) (hb : Ev.started b ∈ s.sh.log)
    (ha' : timesCalled a s.sh.log = 0) (hb' : timesCalled b s.sh.log = 0) : a = b := by
  rw [timesCalled_eq] at ha' hb'
  have h1 := h.inv.token a
  have h2 := h.inv.token b
  rw [if_pos ((h.facts.1.started _).1 ha), hq, ha'] at h1
  rw [if_pos ((h.facts.1.started _).1 hb), hq, hb'] at h2
  cases hs : s.sh.sched <;> rw [hs] at h1 h2 <;> simp [Sched.token] at h1 h2
  rw [← h1, h2]

/-- C25. Calls in progress never block each other for ever: while there are some, one of them can
take a step; -/
theorem C25_no_deadlock {s : St R} (h : Reachable s) (hq : s.acts ≠ []) : ∃ s', Run s s' :=
  exists_run h.inv hq

/-- and they take at most nine steps each, however the steps are interleaved. -/
theorem C25_bounded {n : Nat} {s s' : St R} (h : Runs n s s') : n ≤ 9 * s.acts.length := by
  have := h.work
  have := total_le s.acts
  omega

/-- C25. So the calls in progress can finish. -/
theorem C25_finishes {s : St R} (h : Reachable s) : ∃ n s', Runs n s s' ∧ s'.acts = [] :=
  exists_finished _ s h.inv (Nat.le_refl _)

/-- Two polls and a free, with the second poll starting while the first is parked. -/
example : ∃ s : St Nat, Reachable s ∧ Ev.started 0 ∈ s.sh.log ∧ Ev.started 1 ∈ s.sh.log ∧
    Ev.cancelled ∈ s.sh.log ∧ s.acts = [] ∧ s.sh.log =
      [.started 0, .innerPoll 0, .started 1, .innerPoll 1, .invoked 0 .wake, .cancelled,
        .invoked 1 .ready, .innerDropped, .freed, .released] := by
  refine ⟨_, doCmds_steps (cs := [.start .poll, .run 0 none, .run 0 none, .run 0 none, .run 0 none,
    .run 0 none, .run 0 none, .run 0 none, .run 0 none,
    .start .poll, .run 0 none, .run 0 none, .run 0 none, .run 0 none,
    .run 0 none, .run 0 none, .run 0 none, .run 0 none, .run 0 none,
    .start .free, .run 0 none, .run 0 none, .run 0 none, .run 0 none, .run 0 none, .run 0 none])
    rfl, ?_⟩
  decide

/-! ### C26 -/

/-- C26. Whatever the foreign side does: if a waker fired, and afterwards all calls are finished
and some continuation is still parked, then some continuation was called after the waker fired. -/
theorem C26_not_dropped {s : St R} (h : Reachable s) (hq : s.acts = []) (cb : Nat)
    (hs : Ev.started cb ∈ s.sh.log) (hc : timesCalled cb s.sh.log = 0)
    (pre post : List (Ev R)) (hl : s.sh.log = pre ++ .woke :: post) :
    ∃ c p, Ev.invoked c p ∈ post := by
  have hsched : s.sh.sched = .set cb := by
    rw [timesCalled_eq] at hc
    have h1 := h.inv.token cb
    rw [if_pos ((h.facts.1.started _).1 hs), hq, hc] at h1
    cases hs : s.sh.sched <;> rw [hs] at h1 <;> simp [Sched.token] at h1
    rw [h1]
  apply Classical.byContradiction
  intro hn
  have ho : owed s.sh.log = true := by
    have : ∀ post : List (Ev R), (∀ c p, Ev.invoked c p ∉ post) →
        post.foldl (fun b e => match e with
          | .woke => true
          | .invoked _ _ => false
          | _ => b) true = true := by
      intro post
      induction post with
      | nil => intro _; rfl
      | cons e l ih =>
        intro hp
        have h1 := ih fun c p hm => hp c p (by simp [hm])
        cases e with
        | invoked c p => exact absurd (by simp) (hp c p)
        | _ => exact h1
    rw [hl]
    simp only [owed, List.foldl_append, List.foldl_cons]
    exact this post fun c p hm => hn ⟨c, p, hm⟩
  rcases h.remembered ho with h1 | h1 | h1
  · rw [hq] at h1; simp at h1
  · rw [hsched] at h1; cases h1
  · rw [hsched] at h1; cases h1

/-- C26. When the foreign side polls only after its previous continuation was called, as the
generated code does: if a waker fires at any moment after a poll began, the continuation of that
very poll has been called as soon as the calls in progress are finished. -/
theorem C26_no_lost_wakeup {s s' : St R} {n : Nat} (h : Disciplined s) (cb : Nat)
    (pre post : List (Ev R)) (hl : s.sh.log = pre ++ .started cb :: post) (hw : Ev.woke ∈ post)
    (hr : Runs n s s') (hq : s'.acts = []) : timesCalled cb s'.sh.log = 1 := by
  rw [timesCalled_eq]
  have hd := h.runs hr
  obtain ⟨evs, hlog⟩ := hr.steps.log
  have hlater : Later (.started cb) .woke s'.sh.log := by
    rw [hlog]; exact later_mono ⟨pre, post, hl, hw⟩
  have h1 := hd.reachable.inv.token cb
  rw [if_pos ((hd.reachable.facts.1.started cb).1 (later_mem hlater)), hq] at h1
  by_cases h0 : calls cb s'.sh.log = 0
  · rcases hd.oneAtATime.told cb hlater h0 with ⟨p, k, x⟩ | x | x
    · rw [hq] at x; cases x
    · rw [x, h0] at h1; simp [Sched.token] at h1
    · rw [x, h0] at h1; simp [Sched.token] at h1
  · omega

/-- C26. The calls in progress do finish, and disciplined executions are executions. -/
theorem C26_finishes {s : St R} (h : Disciplined s) : ∃ n s', Runs n s s' ∧ s'.acts = [] :=
  C25_finishes h.reachable

/-- C26. The converse, again for a foreign side that polls only after its previous continuation was
called: continuations are told to poll again at most as often as wakers fired. No poll is asked
for without a reason. -/
theorem C26_no_spurious_wake {s : St R} (h : Disciplined s) :
    s.sh.log.countP (fun e => match e with | .invoked _ .wake => true | _ => false) ≤
      s.sh.log.countP (fun e => match e with | .woke => true | _ => false) := by
  have h1 : ∀ l : List (Ev R), l.countP (fun e => match e with
      | .invoked _ .wake => true | _ => false) = wakesTold l := by
    intro l
    induction l with
    | nil => rfl
    | cons e l ih =>
      cases e with
      | invoked c p => cases p <;> simp [List.countP_cons, wakesTold, ih]
      | _ => simp [List.countP_cons, wakesTold, ih]
  have h2 : ∀ l : List (Ev R), l.countP (fun e => match e with
      | .woke => true | _ => false) = wakesFired l := by
    intro l
    induction l with
    | nil => rfl
    | cons e l ih => cases e <;> simp [List.countP_cons, wakesFired, ih]
  rw [h1, h2]
  have := h.paid
  unfold Paid at this
  omega

/-- Whether a command respects the discipline. -/
def okCmd (s : St R) : Cmd R → Bool
  | .start .poll => (List.range s.sh.nextCb).all fun cb => calls cb s.sh.log == 1
  | _ => true

/-- Execute commands, checking the discipline. -/
def doOkCmds (s : St R) : List (Cmd R) → Option (St R)
  | [] => some s
  | c :: cs => if okCmd s c then
      match doCmd s c with
      | some s' => doOkCmds s' cs
      | none => none
    else none

theorem doOkCmds_disciplined {s s' : St R} {cs : List (Cmd R)} (hd : Disciplined s)
    (h : doOkCmds s cs = some s') : Disciplined s' := by
  induction cs generalizing s with
  | nil => simp only [doOkCmds, Option.some.injEq] at h; subst h; exact hd
  | cons c cs ih =>
    simp only [doOkCmds] at h
    split at h
    · rename_i hok
      split at h
      · rename_i s₁ h1
        refine ih ?_ h
        cases c with
        | start op =>
          simp only [doCmd] at h1
          split at h1
          · split at h1
            · cases h1
              rename_i h2 h3
              refine .start _ _ op hd h2 h3 ?_
              rintro rfl cb hcb
              simp only [okCmd, List.all_eq_true, List.mem_range, beq_iff_eq] at hok
              exact hok cb ((hd.reachable.facts.1.started cb).1 hcb)
            · cases h1
          · cases h1
        | run i o =>
          cases doCmd_step h1 with
          | run hr => exact .run _ _ hd hr
          | start op h2 h3 =>
            refine .start _ _ op hd h2 h3 ?_
            rintro rfl
            exfalso
            simp only [Async.start] at h2
            split at h2
            · cases h2
              simp only [doCmd] at h1
              split at h1
              · split at h1
                · split at h1
                  · rename_i pc hpc _ pc' sh' hst hb
                    simp only [Option.some.injEq, St.mk.injEq] at h1
                    have h4 := congrArg List.length h1.2
                    have hi := (List.getElem?_eq_some_iff.1 hpc).1
                    cases pc' <;> simp at h4 <;> omega
                  · cases h1
                · cases h1
              · cases h1
            · cases h2
      · cases h
    · cases h

/-- The hypotheses of `C26_no_lost_wakeup` are met: two polls one after the other, and the waker
fires while the second is in progress. -/
example : ∃ s : St Nat, Disciplined s ∧ s.acts ≠ [] ∧ s.sh.log =
      [.started 0, .innerPoll 0, .woke, .invoked 0 .wake, .started 1, .innerPoll 1, .woke] := by
  refine ⟨_, doOkCmds_disciplined .init (cs := [.start .poll, .run 0 none, .run 0 none,
    .run 0 none, .start .wakerClone, .start .wakerWakeByRef, .run 0 none, .run 1 none, .run 0 none,
    .run 0 none, .run 0 none, .run 0 none, .run 0 none, .start .poll, .run 0 none, .run 0 none,
    .run 0 none, .start .wakerWakeByRef, .run 1 none]) rfl, ?_⟩
  decide

/-- The waker fires while the future is being polled, before the continuation is parked: the
continuation is called by poll itself. -/
example : ∃ s : St Nat, Reachable s ∧ s.acts = [] ∧ s.sh.wakers = 1 ∧ s.sh.log =
      [.started 0, .innerPoll 0, .woke, .invoked 0 .wake] := by
  refine ⟨_, doCmds_steps (cs := [.start .poll, .run 0 none, .run 0 none, .run 0 none,
    .start .wakerClone, .start .wakerWakeByRef, .run 0 none, .run 1 none, .run 0 none,
    .run 0 none, .run 0 none, .run 0 none, .run 0 none]) rfl, ?_⟩
  decide

/-- The waker fires when the continuation is parked. -/
example : ∃ s : St Nat, Reachable s ∧ s.acts = [] ∧ s.sh.log =
      [.started 0, .innerPoll 0, .woke, .invoked 0 .wake] := by
  refine ⟨_, doCmds_steps (cs := [.start .poll, .run 0 none, .run 0 none, .run 0 none,
    .start .wakerClone, .run 0 none, .run 0 none, .run 0 none, .run 0 none, .run 0 none,
    .start .wakerWake, .run 0 none, .run 0 none, .run 0 none]) rfl, ?_⟩
  decide

/-! ### C27 -/

/-- The start of a poll after a cancellation comes before every event that needs the start. -/
theorem afterCancel_pre {s : St R} (h : Reachable s) {cb : Nat} {e : Ev R}
    {pre post p q : List (Ev R)} (hl : s.sh.log = pre ++ .cancelled :: post)
    (hs : Ev.started cb ∈ post) (hpq : s.sh.log = p ++ e :: q) (he : Ev.started cb ∈ p) :
    StartedAfterCancel cb p := by
  obtain ⟨a, b, rfl⟩ := List.append_of_mem hs
  -- `started cb` occurs only once in the log.
  have h1 : Ev.started cb ∉ pre ++ .cancelled :: a :=
    h.facts.1.hist (pre ++ .cancelled :: a) (.started cb) b (by rw [hl]; simp)
  have h2 : (pre ++ .cancelled :: a) ++ .started cb :: b = p ++ e :: q := by
    rw [← hpq, hl]; simp
  rcases List.append_eq_append_iff.1 h2 with ⟨c, hc, _⟩ | ⟨c, hc, hc'⟩
  · obtain ⟨d, hd⟩ : ∃ d, c = .started cb :: d := by
      cases c with
      | nil => rw [hc] at he; simp at he h1; exact absurd he (by simp [h1])
      | cons x d =>
        rename_i h3
        simp only [List.cons_append, List.cons.injEq] at h3
        exact ⟨d, by rw [h3.1]⟩
    subst hd
    exact ⟨pre, a ++ .started cb :: d, by rw [hc]; simp, by simp⟩
  · rw [hc] at h1
    exact absurd (List.mem_append_left _ he) h1

/-- C27. After a cancellation, the user's future is not polled for a poll that starts later. -/
theorem C27_not_polled {s : St R} (h : Reachable s) (cb : Nat) (pre post : List (Ev R))
    (hl : s.sh.log = pre ++ .cancelled :: post) (hs : Ev.started cb ∈ post) :
    Ev.innerPoll cb ∉ s.sh.log := by
  intro hm
  obtain ⟨p, q, hpq⟩ := List.append_of_mem hm
  have h1 := h.facts.1.hist p _ q hpq
  exact h1.2.2.1 (afterCancel_pre h hl hs hpq h1.2.2.2)

/-- C27. Its continuation is never told to poll again; -/
theorem C27_never_wake {s : St R} (h : Reachable s) (cb : Nat) (pre post : List (Ev R))
    (hl : s.sh.log = pre ++ .cancelled :: post) (hs : Ev.started cb ∈ post) :
    Ev.invoked cb .wake ∉ s.sh.log := by
  intro hm
  obtain ⟨p, q, hpq⟩ := List.append_of_mem hm
  have h1 := h.facts.1.hist p _ q hpq
  exact h1.1 (afterCancel_pre h hl hs hpq h1.2)

/-- it is told Ready as soon as no call is in progress. -/
theorem C27_later_ready {s : St R} (h : Reachable s) (cb : Nat) (pre post : List (Ev R))
    (hl : s.sh.log = pre ++ .cancelled :: post) (hs : Ev.started cb ∈ post) (hq : s.acts = []) :
    Ev.invoked cb .ready ∈ s.sh.log := by
  have h1 := C25_exactly_once h cb (by rw [hl]; simp [hs]) (by rw [hl]; simp) hq
  rw [timesCalled_eq] at h1
  obtain ⟨p, hp⟩ := mem_of_calls (cb := cb) (log := s.sh.log) (by omega)
  cases p with
  | ready => exact hp
  | wake => exact absurd hp (C27_never_wake h cb pre post hl hs)

/-- A continuation is parked: it was handed in, was not called, and no call is working on it. -/
def Parked (cb : Nat) (s : St R) : Prop :=
  Ev.started cb ∈ s.sh.log ∧ timesCalled cb s.sh.log = 0 ∧ ∀ pc ∈ s.acts, pc.token cb = 0

theorem total_zero {f : Pc → Nat} {l : List Pc} (h : ∀ pc ∈ l, f pc = 0) : total f l = 0 := by
  induction l with
  | nil => rfl
  | cons a l ih => simp [h a, ih fun x hx => h x (by simp [hx])]

theorem Parked.set {s : St R} (h : Reachable s) {cb : Nat} (hp : Parked cb s) :
    s.sh.sched = .set cb := by
  obtain ⟨h1, h2, h3⟩ := hp
  rw [timesCalled_eq] at h2
  have h4 := h.inv.token cb
  rw [if_pos ((h.facts.1.started cb).1 h1), h2, total_zero h3] at h4
  cases hs : s.sh.sched <;> rw [hs] at h4 <;> simp [Sched.token] at h4
  rw [h4]

/-- Told Ready, or about to be. -/
def ToldReady (cb : Nat) (s : St R) : Prop :=
  Ev.invoked cb .ready ∈ s.sh.log ∨ ∃ k, Pc.invoke cb .ready k ∈ s.acts

theorem ToldReady.step {cb : Nat} {s s' : St R} (h : ToldReady cb s) (hs : Step s s') :
    ToldReady cb s' := by
  obtain ⟨evs, hl⟩ := hs.log
  rcases h with h | ⟨k, h⟩
  · exact .inl (by rw [hl]; simp [h])
  · cases hs with
    | start op hst hb =>
      refine .inr ⟨k, ?_⟩
      cases op <;> simp only [Async.start] at hst <;> split at hst <;>
        simp only [Option.some.injEq, reduceCtorEq] at hst <;> subst hst <;>
        first | exact h | simp [h]
    | run hr =>
      cases hr with
      | mk l₁ l₂ pc o sh sh' pc' hst hb =>
        simp only [List.mem_append, List.mem_cons] at h
        by_cases hpc : pc = .invoke cb .ready k
        · subst hpc
          simp only [Async.step, Option.some.injEq, Prod.mk.injEq] at hst
          obtain ⟨rfl, rfl⟩ := hst
          exact .inl (by simp [Shared.add])
        · refine .inr ⟨k, ?_⟩
          simp only [List.mem_append]
          rcases h with h | h | h
          · exact .inl (.inl h)
          · exact absurd h.symm hpc
          · exact .inr h

theorem ToldReady.steps {cb : Nat} {s s' : St R} (h : ToldReady cb s) (hs : Steps s s') :
    ToldReady cb s' := by
  induction hs with
  | refl => exact h
  | tail a b _ hst ih => exact ih.step hst

/-- C27. The continuation parked when the cancellation takes effect is told Ready as soon as the
calls in progress are finished, whatever else happens meanwhile. -/
theorem C27_parked_ready {s s₁ s' : St R} (h : Reachable s) (cb : Nat) (hp : Parked cb s)
    (h1 : Step s s₁) (hl : s₁.sh.log = s.sh.log ++ [.cancelled]) (h2 : Steps s₁ s')
    (hq : s'.acts = []) : Ev.invoked cb .ready ∈ s'.sh.log ∧ timesCalled cb s'.sh.log = 1 := by
  have hset := hp.set h
  have hcan : s₁.sh.sched = .cancelled := (h.step h1).facts.1.cancelled.1 (by rw [hl]; simp)
  have htold : ToldReady cb s₁ := by
    cases h1 with
    | start op hst hb =>
      exfalso
      have : s₁.sh.sched = s.sh.sched := by
        cases op <;> simp only [Async.start] at hst <;> split at hst <;>
          simp only [Option.some.injEq, reduceCtorEq] at hst <;> subst hst <;> rfl
      rw [hcan, hset] at this
      cases this
    | run hr =>
      cases hr with
      | mk l₁ l₂ pc o sh sh' pc' hst hb =>
        dsimp only at *
        by_cases hquiet : pc.quiet = true
        · have := (step_quiet hquiet hst).1
          rw [hcan, hset] at this
          cases this
        · cases pc with
          | store c =>
            simp only [Async.step, Option.some.injEq, Prod.mk.injEq] at hst
            obtain ⟨rfl, rfl⟩ := hst
            rw [hset] at hcan; cases hcan
          | invoke c p k =>
            simp only [Async.step, Option.some.injEq, Prod.mk.injEq] at hst
            obtain ⟨rfl, rfl⟩ := hst
            have hcan : sh.sched = .cancelled := hcan
            rw [hset] at hcan; cases hcan
          | wake ow =>
            simp only [Async.step, Option.some.injEq, Prod.mk.injEq] at hst
            obtain ⟨rfl, rfl⟩ := hst
            have hcan : sh.sched.wake.1 = .cancelled := hcan
            rw [hset] at hcan; cases hcan
          | cancel f =>
            simp only [Async.step, Option.some.injEq, Prod.mk.injEq] at hst
            obtain ⟨rfl, rfl⟩ := hst
            refine .inr ⟨if f = true then .free else .dropArc, ?_⟩
            rw [hset]
            simp [Sched.cancel, invokeThen]
          | _ => simp [Pc.quiet] at hquiet
  have hr' : Reachable s' := (h.step h1).steps h2
  have hready : Ev.invoked cb .ready ∈ s'.sh.log := by
    rcases htold.steps h2 with x | ⟨k, x⟩
    · exact x
    · rw [hq] at x; cases x
  refine ⟨hready, C25_exactly_once hr' cb ?_ ?_ hq⟩
  · obtain ⟨evs, he⟩ := h2.log
    rw [he, hl]; simp [hp.1]
  · obtain ⟨evs, he⟩ := h2.log
    rw [he, hl]; simp

/-- C27. Cancellation cannot be undone: a wake or a poll after it does not make the future live
again (every continuation after it is told Ready, above), and the events of cancellation stay. -/
theorem C27_sticky {s s' : St R} (h : Steps s s') (hc : Ev.cancelled ∈ s.sh.log) :
    Ev.cancelled ∈ s'.sh.log := by
  obtain ⟨evs, he⟩ := h.log
  rw [he]; simp [hc]

/-- Parked, then cancelled, then polled again. -/
example : ∃ s : St Nat, Reachable s ∧ s.acts = [] ∧ s.sh.log =
      [.started 0, .innerPoll 0, .cancelled, .invoked 0 .ready, .started 1, .invoked 1 .ready] := by
  refine ⟨_, doCmds_steps (cs := [.start .poll, .run 0 none, .run 0 none, .run 0 none,
    .run 0 none, .run 0 none, .run 0 none, .run 0 none, .run 0 none,
    .start .cancel, .run 0 none, .run 0 none, .run 0 none,
    .start .poll, .run 0 none, .run 0 none, .run 0 none]) rfl, ?_⟩
  decide

/-- The hypotheses of `C27_parked_ready` are met: parked, and a cancel about to take effect. -/
example : ∃ s s₁ : St Nat, Reachable s ∧ Parked 0 s ∧ Step s s₁ ∧
    s₁.sh.log = s.sh.log ++ [.cancelled] := by
  refine ⟨_, _, doCmds_steps (cs := [.start .poll, .run 0 none, .run 0 none, .run 0 none,
    .run 0 none, .run 0 none, .run 0 none, .run 0 none, .run 0 none, .start .cancel]) rfl, ?_,
    doCmd_step (c := .run 0 none) rfl, ?_⟩
  · exact ⟨by decide, by decide, by decide⟩
  · decide

/-! ### C28 -/

/-- C28. What complete hands over: the result the future produced, if it produced one and nobody
took it or threw it away before; otherwise nothing, which is reported as Cancelled. -/
theorem C28_completed {s : St R} (h : Reachable s) (out : Option R) (pre post : List (Ev R))
    (hl : s.sh.log = pre ++ .completed out :: post) :
    ∀ r, out = some r ↔
      Ev.innerReady r ∈ pre ∧ (∀ o, Ev.completed o ∉ pre) ∧ Ev.freed ∉ pre :=
  h.facts.1.hist pre _ post hl

/-- C28. The future finishes at most once, so there is only one result to deliver. -/
theorem C28_finishes_once {s : St R} (h : Reachable s) (r r' : R) (pre post : List (Ev R))
    (hl : s.sh.log = pre ++ .innerReady r :: post) : Ev.innerReady r' ∉ pre :=
  (h.facts.1.hist pre _ post hl).1 r'

/-- C28. The first complete after a continuation was told Ready returns the result, provided the
future was not cancelled. -/
theorem C28_ready_complete {s : St R} (h : Reachable s) (cb : Nat) (out : Option R)
    (pre post : List (Ev R)) (hl : s.sh.log = pre ++ .completed out :: post)
    (hready : Ev.invoked cb .ready ∈ pre) (hnc : Ev.cancelled ∉ pre)
    (hfirst : ∀ o, Ev.completed o ∉ pre) : ∃ r, Ev.innerReady r ∈ pre ∧ out = some r := by
  obtain ⟨a, b, rfl⟩ := List.append_of_mem hready
  have h1 : Final a := h.facts.1.hist a (.invoked cb .ready) (b ++ .completed out :: post)
    (by rw [hl]; simp)
  have hf : Ev.freed ∉ a ++ .invoked cb .ready :: b := by
    intro hf
    obtain ⟨c, d, hcd⟩ := List.append_of_mem hf
    have : Ev.cancelled ∈ c := h.facts.1.hist c .freed (d ++ .completed out :: post)
      (by rw [hl, hcd]; simp)
    exact hnc (by rw [hcd]; simp [this])
  rcases h1 with ⟨r, hr⟩ | ⟨o, ho⟩ | hc
  · have hr' : Ev.innerReady r ∈ a ++ .invoked cb .ready :: b := by simp [hr]
    exact ⟨r, hr', (C28_completed h out _ post hl r).2 ⟨hr', hfirst, hf⟩⟩
  · exact absurd (by simp [ho]) (hfirst o)
  · exact absurd (by simp [hc]) hnc

/-- C28. A second complete reports Cancelled. -/
theorem C28_second {s : St R} (h : Reachable s) (out out' : Option R) (pre post : List (Ev R))
    (hl : s.sh.log = pre ++ .completed out' :: post) (ho : Ev.completed out ∈ pre) : out' = none := by
  cases out' with
  | none => rfl
  | some r => exact absurd ho (((C28_completed h _ pre post hl r).1 rfl).2.1 out)

/-- C28. Completing a future that did not finish reports Cancelled. -/
theorem C28_unfinished {s : St R} (h : Reachable s) (out : Option R) (pre post : List (Ev R))
    (hl : s.sh.log = pre ++ .completed out :: post) (hu : ∀ r, Ev.innerReady r ∉ pre) :
    out = none := by
  cases out with
  | none => rfl
  | some r => exact absurd ((C28_completed h _ pre post hl r).1 rfl).1 (hu r)

/-- C28. The user's future is never polled after it finished (which includes panicking), after it
was completed or freed, or after it was dropped. -/
theorem C28_never_polled_again {s : St R} (h : Reachable s) (cb : Nat) (pre post : List (Ev R))
    (hl : s.sh.log = pre ++ .innerPoll cb :: post) :
    (∀ r, Ev.innerReady r ∉ pre) ∧ (∀ o, Ev.completed o ∉ pre) ∧ Ev.freed ∉ pre ∧
      Ev.innerDropped ∉ pre := by
  have := h.facts.1.hist pre _ post hl
  exact ⟨this.1.1, this.1.2.1, this.1.2.2, this.2.1⟩

/-- What one poll of the user's future amounts to, in words of the specification: still pending,
or finished with a value, a declared error or an unexpected error. -/
inductive Outcome (W : Type) where
  | pending
  | value (w : W)
  | error (buf : Bytes)
  | unexpected (msg : String)

/-- The call status of an outcome. -/
def Outcome.result {W : Type} : Outcome W → Option (Except Call.Status W)
  | .pending => none
  | .value w => some (.ok w)
  | .error b => some (.error ⟨.error, b⟩)
  | .unexpected m => some (.error ⟨.unexpected, Wire.utf8 m⟩)

/-- C28. Which outcome each poll has, when lowering works. -/
def outcomeOf {E V W : Type} (throws : Bool) (lower : V → W) (lowerError : E → Bytes) :
    UserPoll E V → Outcome W
  | .pending => .pending
  | .ready (.ok v) => .value (lower v)
  | .ready (.error e) => .error (lowerError e)
  | .liftFailed name e => match throws, e.user with
    | true, some u => .error (lowerError u)
    | _, _ => .unexpected ("Failed to convert arg '" ++ name ++ "':\n" ++ e.text)
  | .panic p => .unexpected p.message

/-- C28. The result the wrapped future stores says exactly what the user's future did. -/
theorem C28_result {E V W : Type} (throws : Bool) (lower : V → W) (lowerError : E → Bytes)
    (u : UserPoll E V) :
    innerOutcome throws (fun v => .ret (lower v)) (fun e => .ret (lowerError e)) u =
      .ret (outcomeOf throws lower lowerError u).result := by
  rcases u with _ | (e | v) | ⟨name, ⟨us, text⟩⟩ | (s | s | _)
  · rfl
  · rfl
  · rfl
  · cases throws <;> cases us <;> rfl
  · rfl
  · rfl
  · rfl

/-- C28. If lowering the value or the error panics, that is reported as an unexpected error and
does not unwind into the executor. -/
theorem C28_lower_panics {E V W : Type} (throws : Bool) (lower : V → Call.Eff W)
    (lowerError : E → Call.Eff Bytes) (v : V) (e : E) (p q : Call.Payload)
    (hv : lower v = .panic p) (he : lowerError e = .panic q) :
    innerOutcome throws lower lowerError (.ready (.ok v)) =
        .ret (some (.error ⟨.unexpected, Wire.utf8 p.message⟩)) ∧
      innerOutcome throws lower lowerError (.ready (.error e)) =
        .ret (some (.error ⟨.unexpected, Wire.utf8 q.message⟩)) := by
  constructor
  · simp [innerOutcome, Call.lowerReturn, hv, Call.Eff.bind, Call.tryRustCall,
      Call.rustCallWithOutStatus, Call.catchUnwind, Call.lowerString]
  · simp [innerOutcome, Call.lowerReturn, he, Call.Eff.bind, Call.tryRustCall,
      Call.rustCallWithOutStatus, Call.catchUnwind, Call.lowerString]

/-- C28. What the foreign side reads after complete, for each outcome taken, with the fresh status
it passes. -/
theorem C28_complete_reports {W : Type} (dflt : W) :
    (∀ w, completeOut dflt {} (some (.ok w)) = (w, ⟨.success, []⟩)) ∧
    (∀ e, completeOut dflt {} (some (.error e)) = (dflt, e)) ∧
    completeOut dflt {} (none : Option (Except Call.Status W)) = (dflt, ⟨.cancelled, []⟩) :=
  ⟨fun _ => rfl, fun _ => rfl, rfl⟩

/-- A future that finishes with 7 on its second poll; the second complete finds nothing. -/
example : ∃ s : St Nat, Reachable s ∧ s.acts = [] ∧ s.sh.log =
      [.started 0, .innerPoll 0, .woke, .invoked 0 .wake, .started 1, .innerPoll 1, .innerReady 7,
        .innerDropped, .invoked 1 .ready, .completed (some 7), .completed none] := by
  refine ⟨_, doCmds_steps (cs := [.start .poll, .run 0 none, .run 0 none, .run 0 none,
    .start .wakerClone, .run 0 none, .run 0 none, .run 0 none, .run 0 none, .run 0 none,
    .start .wakerWake, .run 0 none, .run 0 none, .run 0 none,
    .start .poll, .run 0 none, .run 0 none, .run 0 none, .run 0 (some 7), .run 0 none, .run 0 none,
    .run 0 none, .run 0 none,
    .start .complete, .run 0 none, .run 0 none, .run 0 none, .run 0 none,
    .start .complete, .run 0 none, .run 0 none, .run 0 none, .run 0 none]) rfl, ?_⟩
  decide

/-! ### C29 -/

/-- C29. The object is never touched after it was released. -/
theorem C29_no_use_after_release {s : St R} (h : Reachable s) : s.sh.ub = false := h.inv.ub

/-- How often the future object was released. -/
def timesReleased (log : List (Ev R)) : Nat :=
  (log.filter fun | .released => true | _ => false).length
/-- How often the user's future was dropped. -/
def timesDropped (log : List (Ev R)) : Nat :=
  (log.filter fun | .innerDropped => true | _ => false).length

theorem timesReleased_eq (log : List (Ev R)) : timesReleased log = releases log := by
  induction log with
  | nil => rfl
  | cons e l ih => cases e <;> simp [timesReleased, releases] at ih ⊢ <;> omega

theorem timesDropped_eq (log : List (Ev R)) : timesDropped log = drops log := by
  induction log with
  | nil => rfl
  | cons e l ih => cases e <;> simp [timesDropped, drops] at ih ⊢ <;> omega

/-- C29. The object is released at most once, and it is released exactly when the foreign side
gave up its handle, no waker is left and no call is in progress. -/
theorem C29_released {s : St R} (h : Reachable s) :
    timesReleased s.sh.log ≤ 1 ∧
    (timesReleased s.sh.log = 1 ↔ s.sh.handle = false ∧ s.sh.wakers = 0 ∧ s.acts = []) := by
  rw [timesReleased_eq, h.facts.1.releases]
  have hc := h.inv.count
  refine ⟨by cases (s.sh.count == 0) <;> decide, ?_⟩
  constructor
  · intro h0
    have h0 : s.sh.count = 0 := by
      apply Decidable.byContradiction
      intro hn
      have : (s.sh.count == 0) = false := by simp [hn]
      rw [this] at h0; cases h0
    have hh : s.sh.handle = false := by
      cases hh : s.sh.handle with
      | false => rfl
      | true => rw [hh] at hc; simp at hc; omega
    refine ⟨hh, by omega, ?_⟩
    apply Decidable.byContradiction
    intro hne
    obtain ⟨pc, hpc⟩ := List.exists_mem_of_ne_nil _ hne
    have := h.inv.count_pos hpc
    omega
  · rintro ⟨h1, h2, h3⟩
    have : s.sh.count = 0 := by rw [hc, h1, h2, h3]; rfl
    rw [this]; rfl

/-- C29. The user's future is dropped at most once, and it is gone once the object is released,
or once free or complete has taken effect, even if wakers are left. -/
theorem C29_dropped {s : St R} (h : Reachable s) :
    timesDropped s.sh.log ≤ 1 ∧
    (timesReleased s.sh.log = 1 ∨ Ev.freed ∈ s.sh.log ∨ (∃ o, Ev.completed o ∈ s.sh.log) →
      timesDropped s.sh.log = 1) := by
  rw [timesDropped_eq, timesReleased_eq, h.facts.1.drops]
  refine ⟨by cases s.sh.fut <;> decide, ?_⟩
  intro hx
  cases hf : s.sh.fut with
  | false => rfl
  | true =>
    exfalso
    have h1 := (h.facts.1.fresh hf).1
    rcases hx with hx | hx | ⟨o, hx⟩
    · rw [h.facts.1.releases] at hx
      have h0 : s.sh.count = 0 := by
        apply Decidable.byContradiction
        intro hn
        have : (s.sh.count == 0) = false := by simp [hn]
        rw [this] at hx; cases hx
      rw [h.inv.rel h0] at hf; cases hf
    · exact h1.2.2 hx
    · exact h1.2.1 o hx

/-- The foreign side frees the future while user code keeps a waker: the future is dropped at
once, the object when the waker goes. -/
example : ∃ s s' : St Nat, Reachable s ∧ Steps s s' ∧ s.sh.log =
      [.started 0, .innerPoll 0, .cancelled, .invoked 0 .ready, .innerDropped, .freed] ∧
    s'.sh.log = s.sh.log ++ [.woke, .released] := by
  refine ⟨_, _, doCmds_steps (cs := [.start .poll, .run 0 none, .run 0 none, .run 0 none,
    .start .wakerClone, .run 0 none, .run 0 none, .run 0 none, .run 0 none, .run 0 none,
    .start .free, .run 0 none, .run 0 none, .run 0 none, .run 0 none, .run 0 none, .run 0 none])
    rfl, doCmds_steps (cs := [.start .wakerWake, .run 0 none, .run 0 none]) rfl, ?_⟩
  decide

end Verif.Props.Async
