import Verif.Handles.KotlinObjectLemmas
/-
C36: a Kotlin object that holds a Rust handle, used, destroyed and closed by any number of threads in
any interleaving.
-/
namespace Verif.Props.KotlinObject
open Verif.KotlinObject

variable {s : St}

/-! ### Executions, to show that states are reachable -/

/-- The next step of thread `i`; `a` starts a call (0), `destroy` (1) or passes the object (2). -/
def doStep (s : St) (i a : Nat) : Option St :=
  match s.threads[i]? with
  | none => none
  | some .idle =>
    if s.gone then none
    else if a = 0 then some (s.at_ i .start)
    else if a = 1 then some ((s.at_ i .destroying).add (.destroy i))
    else some (s.at_ i .passing)
  | some .start => some (s.at_ i (.got s.counter))
  | some (.got c) =>
    if c = 0 then some ((s.at_ i .idle).add (.refused i))
    else if c = longMax then some ((s.at_ i .idle).add (.overflow i))
    else if s.counter = c then some { s.at_ i .counted with counter := c + 1 }
    else some (s.at_ i .start)
  | some .counted => some ((s.at_ i .running).add (.cloned i))
  | some .running => some ((s.at_ i .leaving).add (.returned i))
  | some .leaving => some { s.at_ i (if s.counter - 1 = 0 then .cleaning else .idle) with
      counter := s.counter - 1 }
  | some .cleaning => some (s.clean.at_ i .idle)
  | some .destroying => some { s.at_ i (if s.flag then .idle else .destroyed) with flag := true }
  | some .destroyed => some { s.at_ i (if s.counter - 1 = 0 then .cleaning else .idle) with
      counter := s.counter - 1 }
  | some .passing => some ((s.at_ i .idle).add (.passed i))

theorem doStep_step {s s' : St} {i a : Nat} (h : doStep s i a = some s') : Step s s' := by
  unfold doStep at h
  split at h
  · cases h
  · rename_i hi
    split at h
    · cases h
    · rename_i hg
      have hg : s.gone = false := by simpa using hg
      split at h
      · cases h; exact .call s i hi hg
      · split at h
        · cases h; exact .destroy s i hi hg
        · cases h; exact .pass s i hi hg
  · rename_i hi; cases h; exact .get s i hi
  · rename_i c hi
    split at h
    · rename_i hc; cases h; exact .refuse s i c hi hc
    · rename_i hc
      split at h
      · rename_i hm; cases h; exact .full s i c hi hc hm
      · rename_i hm
        split at h
        · rename_i he; cases h; exact .enter s i c hi hc hm he
        · rename_i he; cases h; exact .retry s i c hi hc hm he
  · rename_i hi; cases h; exact .clone s i hi
  · rename_i hi; cases h; exact .ret s i hi
  · rename_i hi; cases h; exact .leave s i hi
  · rename_i hi; cases h; exact .clean s i hi
  · rename_i hi; cases h; exact .set s i hi
  · rename_i hi; cases h; exact .drop s i hi
  · rename_i hi; cases h; exact .lower s i hi

def doSteps (s : St) : List (Nat × Nat) → Option St
  | [] => some s
  | (i, a) :: l => (doStep s i a).bind fun s => doSteps s l

theorem doSteps_reach {s s' : St} {l : List (Nat × Nat)} (hr : Reach s)
    (h : doSteps s l = some s') : Reach s' := by
  induction l generalizing s with
  | nil => cases h; exact hr
  | cons x l ih =>
    simp only [doSteps, Option.bind_eq_some_iff] at h
    obtain ⟨s₁, h1, h2⟩ := h
    exact ih (.step _ _ hr (doStep_step h1)) h2

/-- Thread 0 is in a method when thread 1 destroys the object; thread 2 calls while the first call is
running, loses a race for the counter and succeeds; the last one out frees the handle, and thread 1
is then refused. -/
theorem demo : ∃ s, Reach s ∧ s.log = [.cloned 0, .destroy 1, .cloned 2, .returned 0, .returned 2,
    .freed, .refused 1] ∧ s.threads = [.idle, .idle, .idle] ∧ s.flag = true :=
  ⟨_, doSteps_reach (l := [(0, 0), (2, 0), (2, 0), (0, 0), (0, 0), (0, 0), (1, 1), (2, 0), (1, 0),
    (1, 0), (2, 0), (2, 0), (2, 0), (0, 0), (0, 0), (2, 0), (2, 0), (2, 0), (1, 0), (1, 0), (1, 0)])
    (.init 3) rfl, by decide⟩

/-! ### C36 -/

/-- C36. A method call never clones, and so never uses, a handle that was freed. -/
theorem C36_no_use_after_free (h : Reach s) (pre post : List Ev) (i : Nat)
    (hl : s.log = pre ++ .cloned i :: post) : .freed ∉ pre :=
  h.inv.use pre post i hl

/-- C36. The handle is freed at most once. -/
theorem C36_freed_once (h : Reach s) : s.log.count .freed ≤ 1 := by
  rw [h.inv.freed]; split <;> omega

/-- C36. It is freed only after `destroy` was called or the object became unreachable. -/
theorem C36_freed_on_request (h : Reach s) (hf : .freed ∈ s.log) :
    (∃ i, Ev.destroy i ∈ s.log) ∨ .unreachable ∈ s.log := by
  have j := h.inv
  have hc : s.cleaned = true := by
    have := List.count_pos_iff.2 hf
    rw [j.freed] at this
    by_cases hc : s.cleaned = true
    · exact hc
    · rw [if_neg hc] at this; omega
  rcases j.cleaned hc with h0 | ⟨h0, _⟩
  · refine .inl (j.flag ?_)
    have := j.count
    cases hf : s.flag with
    | true => rfl
    | false => simp only [St.own, hf, Bool.false_eq_true, if_false] at this; omega
  · exact .inr (j.lost h0)

/-- C36. Once it is freed no thread is inside a method call. -/
theorem C36_freed_after_calls (h : Reach s) (hf : .freed ∈ s.log) :
    .counted ∉ s.threads ∧ .running ∉ s.threads ∧ .leaving ∉ s.threads := by
  have j := h.inv
  have hc : s.cleaned = true := by
    have := List.count_pos_iff.2 hf
    rw [j.freed] at this
    by_cases hc : s.cleaned = true
    · exact hc
    · rw [if_neg hc] at this; omega
  have h0 : s.inCall = 0 := by
    have := j.count
    rcases j.cleaned hc with h0 | ⟨_, h0⟩ <;> omega
  have := List.countP_eq_zero.1 h0
  exact ⟨fun hm => this _ hm rfl, fun hm => this _ hm rfl, fun hm => this _ hm rfl⟩

/-- C36. After `destroy`, when every thread has finished what it was doing, the handle is freed. -/
theorem C36_freed_at_last (h : Reach s) (i : Nat) (hd : Ev.destroy i ∈ s.log)
    (hi : ∀ p ∈ s.threads, p = .idle) : .freed ∈ s.log := by
  have j := h.inv
  have hfl : s.flag = true := by
    rcases h.req ⟨i, hd⟩ with hf | ⟨k, hk⟩
    · exact hf
    · have := hi _ (List.mem_of_getElem? hk); cases this
  have h0 : s.counter = 0 := by
    have := j.count
    simp only [St.own, hfl, if_true, St.inCall, St.des, countP_idle (f := isIn) rfl hi,
      countP_idle (f := isDes) rfl hi] at this
    exact this
  rcases j.done h0 with hc | hc
  · have := j.freed
    rw [hc] at this
    exact List.count_pos_iff.1 (by rw [this]; simp)
  · simp only [St.cl, countP_idle (f := isClean) rfl hi] at hc; omega

/-- C36. The counter stays in the range of a `Long`. -/
theorem C36_counter_bounded (h : Reach s) : s.counter ≤ 2 ^ 63 - 1 := h.inv.bound

/-- C36 does not hold for arguments: `lower` clones the handle without asking the counter. Thread 0
destroys the object, thread 1 passes it. -/
theorem C36_argument_unprotected : ∃ s, Reach s ∧ s.log = [.destroy 0, .freed, .passed 1] :=
  ⟨_, doSteps_reach (l := [(0, 1), (0, 0), (0, 0), (0, 0), (1, 2), (1, 0)]) (.init 2) rfl, by decide⟩

end Verif.Props.KotlinObject
