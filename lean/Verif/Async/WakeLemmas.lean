import Verif.Async.LogLemmas
/-
Running calls always finish; wakes are not lost.
-/
namespace Verif.Async
open Verif

variable {R : Type}

/-! ### Running calls finish -/

/-- Steps left in a call, at most. -/
def Pc.work : Pc → Nat
  | .pollStart _ => 9
  | .pollLock _ => 8
  | .pollBody _ => 7
  | .inFuture _ => 6
  | .pollDropWaker _ _ => 5
  | .pollUnlock _ _ => 4
  | .store _ => 3
  | .invoke _ _ .dropArc => 2
  | .invoke _ _ .done => 1
  | .invoke _ _ .free => 5
  | .dropArc => 1
  | .cancel true => 6
  | .cancel false => 3
  | .freeLock => 4
  | .freeBody => 3
  | .freeUnlock => 2
  | .complLock => 4
  | .complBody => 3
  | .complUnlock => 2
  | .wake true => 3
  | .wake false => 2

theorem work_le (pc : Pc) : pc.work ≤ 9 := by
  cases pc with
  | invoke c p k => cases k <;> simp [Pc.work]
  | cancel f => cases f <;> simp [Pc.work]
  | wake o => cases o <;> simp [Pc.work]
  | _ => simp [Pc.work]

theorem step_work {o : Option R} {sh sh' : Shared R} {pc : Pc} {pc' : Option Pc}
    (h : step o sh pc = some (pc', sh')) : left Pc.work pc' < pc.work := by
  cases pc with
  | pollStart cb =>
    simp only [step] at h
    split at h <;> simp only [Option.some.injEq, Prod.mk.injEq] at h <;> obtain ⟨rfl, _⟩ := h <;>
      simp [left, Pc.work]
  | pollLock cb =>
    simp only [step] at h
    split at h <;> simp only [Option.some.injEq, Prod.mk.injEq, reduceCtorEq] at h
    obtain ⟨rfl, _⟩ := h
    simp [left, Pc.work]
  | pollBody cb =>
    simp only [step] at h
    split at h
    · simp only [Option.some.injEq, Prod.mk.injEq] at h; obtain ⟨rfl, _⟩ := h
      simp [left, Pc.work]
    · split at h <;> simp only [Option.some.injEq, Prod.mk.injEq] at h <;> obtain ⟨rfl, _⟩ := h <;>
        simp [left, Pc.work]
  | inFuture cb =>
    simp only [step] at h
    cases o <;> simp only [Option.some.injEq, Prod.mk.injEq] at h <;> obtain ⟨rfl, _⟩ := h <;>
      simp [left, Pc.work]
  | pollUnlock cb ready =>
    simp only [step] at h
    split at h <;> simp only [Option.some.injEq, Prod.mk.injEq] at h <;> obtain ⟨rfl, _⟩ := h <;>
      simp [left, Pc.work]
  | store cb =>
    simp only [step, Option.some.injEq, Prod.mk.injEq] at h
    obtain ⟨rfl, _⟩ := h
    cases sh.sched <;> simp [left, Pc.work, Sched.store, invokeThen, After.pc]
  | invoke cb p k =>
    simp only [step, Option.some.injEq, Prod.mk.injEq] at h
    obtain ⟨rfl, _⟩ := h
    cases k <;> simp [left, Pc.work, After.pc]
  | cancel free =>
    simp only [step, Option.some.injEq, Prod.mk.injEq] at h
    obtain ⟨rfl, _⟩ := h
    cases sh.sched <;> cases free <;> simp [left, Pc.work, Sched.cancel, invokeThen, After.pc]
  | freeLock =>
    simp only [step] at h
    split at h <;> simp only [Option.some.injEq, Prod.mk.injEq, reduceCtorEq] at h
    obtain ⟨rfl, _⟩ := h
    simp [left, Pc.work]
  | complLock =>
    simp only [step] at h
    split at h <;> simp only [Option.some.injEq, Prod.mk.injEq, reduceCtorEq] at h
    obtain ⟨rfl, _⟩ := h
    simp [left, Pc.work]
  | wake owns =>
    simp only [step, Option.some.injEq, Prod.mk.injEq] at h
    obtain ⟨rfl, _⟩ := h
    cases sh.sched <;> cases owns <;> simp [left, Pc.work, Sched.wake, invokeThen, After.pc]
  | _ =>
    simp only [step, Option.some.injEq, Prod.mk.injEq] at h
    obtain ⟨rfl, _⟩ := h
    simp [left, Pc.work]

theorem run_work {s s' : St R} (h : Run s s') : total Pc.work s'.acts < total Pc.work s.acts := by
  cases h with
  | mk l₁ l₂ pc o sh sh' pc' h hb =>
    have := step_work h
    simp only [total_append, total_cons, total_toList]; omega

/-- `n` steps of calls already running. -/
inductive Runs : Nat → St R → St R → Prop
  | refl (s : St R) : Runs 0 s s
  | tail (n : Nat) (s s' s'' : St R) : Runs n s s' → Run s' s'' → Runs (n + 1) s s''

theorem Runs.work {n : Nat} {s s' : St R} (h : Runs n s s') :
    n + total Pc.work s'.acts ≤ total Pc.work s.acts := by
  induction h with
  | refl => simp
  | tail n s s' s'' _ h ih => have := run_work h; omega

theorem total_le (l : List Pc) : total Pc.work l ≤ 9 * l.length := by
  induction l with
  | nil => simp
  | cons a l ih => have := work_le a; simp; omega

theorem Runs.steps {n : Nat} {s s' : St R} (h : Runs n s s') : Steps s s' := by
  induction h with
  | refl => exact .refl _
  | tail n s s' s'' _ h ih => exact .tail _ _ _ ih (.run _ _ h)

theorem Runs.head {n : Nat} {s s₁ s' : St R} (h : Runs n s₁ s') (h1 : Run s s₁) :
    Runs (n + 1) s s' := by
  induction h with
  | refl => exact .tail 0 s s _ (.refl s) h1
  | tail n a b c _ hbc ih => exact .tail _ s b c (ih h1) hbc

/-- A call can always go on, unless it waits for the mutex. -/
theorem step_enabled (sh : Shared R) (pc : Pc)
    (h : sh.locked = false ∨ pc.holds = 1 ∨ pc.borrows = true) : ∃ r, step none sh pc = some r := by
  cases pc <;> simp only [step]
  case pollLock => simp_all [Pc.holds, Pc.borrows]
  case freeLock => simp_all [Pc.holds, Pc.borrows]
  case complLock => simp_all [Pc.holds, Pc.borrows]
  case pollStart => split <;> exact ⟨_, rfl⟩
  case pollBody => split <;> (try split) <;> exact ⟨_, rfl⟩
  case pollUnlock => split <;> exact ⟨_, rfl⟩
  all_goals exact ⟨_, rfl⟩

/-- A step of a call that is not inside the user's future cannot end the life of a borrowed
waker. -/
theorem borrows_kept {o : Option R} {sh sh' : Shared R} {pc : Pc} {pc' : Option Pc}
    {l₁ l₂ : List Pc} (hi : Inv (⟨sh, l₁ ++ pc :: l₂⟩ : St R))
    (h : step o sh pc = some (pc', sh'))
    (hp : pc.inside = false ∨ (l₁ ++ pc :: l₂).any Pc.borrows = false) :
    (⟨sh', l₁ ++ pc'.toList ++ l₂⟩ : St R).BorrowsLive := by
  obtain ⟨hc, ha, hl⟩ := hi.step_hyps
  have hw := (step_local h hc ha hl).2.2.1
  have hb : ∀ q, pc' = some q → q.borrows = true → pc.borrows = true := by
    intro q hq hb
    subst hq
    cases pc with
    | wake owns =>
      simp only [step, Option.some.injEq, Prod.mk.injEq] at h
      obtain ⟨h, _⟩ := h
      cases owns
      · rfl
      · cases hs : sh.sched <;> simp [hs, Sched.wake, invokeThen, After.pc] at h <;> subst h <;>
          simp [Pc.borrows] at hb
    | store cb =>
      simp only [step, Option.some.injEq, Prod.mk.injEq] at h
      obtain ⟨h, _⟩ := h
      cases hs : sh.sched <;> simp [hs, Sched.store, invokeThen, After.pc] at h <;> subst h <;>
        simp [Pc.borrows] at hb
    | cancel free =>
      simp only [step, Option.some.injEq, Prod.mk.injEq] at h
      obtain ⟨h, _⟩ := h
      cases hs : sh.sched <;> cases free <;> simp [hs, Sched.cancel, invokeThen, After.pc] at h <;>
        subst h <;> simp [Pc.borrows] at hb
    | invoke c p k =>
      simp only [step, Option.some.injEq, Prod.mk.injEq] at h
      obtain ⟨h, _⟩ := h
      cases k <;> simp [After.pc] at h <;> subst h <;> simp [Pc.borrows] at hb
    | pollStart cb =>
      simp only [step] at h
      split at h <;> simp only [Option.some.injEq, Prod.mk.injEq] at h <;> obtain ⟨rfl, _⟩ := h <;>
        simp [Pc.borrows] at hb
    | pollBody cb =>
      simp only [step] at h
      split at h
      · simp only [Option.some.injEq, Prod.mk.injEq] at h; obtain ⟨rfl, _⟩ := h
        simp [Pc.borrows] at hb
      · split at h <;> simp only [Option.some.injEq, Prod.mk.injEq] at h <;>
          obtain ⟨rfl, _⟩ := h <;> simp [Pc.borrows] at hb
    | inFuture cb =>
      simp only [step] at h
      cases o <;> simp only [Option.some.injEq, Prod.mk.injEq] at h <;> obtain ⟨rfl, _⟩ := h <;>
        simp [Pc.borrows] at hb
    | pollUnlock cb ready =>
      simp only [step] at h
      split at h <;> simp only [Option.some.injEq, Prod.mk.injEq] at h <;> obtain ⟨rfl, _⟩ := h <;>
        simp [Pc.borrows] at hb
    | pollLock cb =>
      simp only [step] at h
      split at h <;> simp only [Option.some.injEq, Prod.mk.injEq, reduceCtorEq] at h
      obtain ⟨rfl, _⟩ := h; simp [Pc.borrows] at hb
    | freeLock =>
      simp only [step] at h
      split at h <;> simp only [Option.some.injEq, Prod.mk.injEq, reduceCtorEq] at h
      obtain ⟨rfl, _⟩ := h; simp [Pc.borrows] at hb
    | complLock =>
      simp only [step] at h
      split at h <;> simp only [Option.some.injEq, Prod.mk.injEq, reduceCtorEq] at h
      obtain ⟨rfl, _⟩ := h; simp [Pc.borrows] at hb
    | _ =>
      simp only [step, Option.some.injEq, Prod.mk.injEq, reduceCtorEq, false_and] at h
      try (obtain ⟨rfl, _⟩ := h; simp [Pc.borrows] at hb)
  intro hany
  dsimp only at hany ⊢
  have hold : (l₁ ++ pc :: l₂).any Pc.borrows = true := by
    simp only [List.any_append, List.any_cons, Bool.or_eq_true] at hany ⊢
    rcases hany with (h1 | h1) | h1
    · exact .inl h1
    · cases pc' with
      | none => simp at h1
      | some q => exact .inr (.inl (hb q rfl (by simpa using h1)))
    · exact .inr (.inr h1)
  rcases hp with hp | hp
  · rcases hi.borrow hold with h1 | h1
    · exact .inl (by dsimp only at h1; omega)
    · refine .inr ?_
      simp only [List.any_append, List.any_cons, Bool.or_eq_true, hp, Bool.false_eq_true,
        false_or] at h1 ⊢
      rcases h1 with h1 | h1
      · exact .inl (.inl h1)
      · exact .inr h1
  · rw [hp] at hold; cases hold

/-- Some running call can take a step: there is no deadlock. -/
theorem exists_run {s : St R} (hi : Inv s) (h : s.acts ≠ []) : ∃ s', Run s s' := by
  have go : ∀ pc ∈ s.acts, (s.sh.locked = false ∨ pc.holds = 1 ∨ pc.borrows = true) →
      (pc.inside = false ∨ s.acts.any Pc.borrows = false) → ∃ s', Run s s' := by
    intro pc hpc h1 h2
    obtain ⟨⟨pc', sh'⟩, hs⟩ := step_enabled s.sh pc h1
    obtain ⟨l₁, l₂, hl⟩ := List.append_of_mem hpc
    obtain ⟨sh, acts⟩ := s
    dsimp only at hl
    subst hl
    exact ⟨_, .mk l₁ l₂ pc none sh sh' pc' hs (borrows_kept hi hs h2)⟩
  by_cases hb : s.acts.any Pc.borrows = true
  · obtain ⟨pc, hpc, hb'⟩ := List.any_eq_true.1 hb
    refine go pc hpc (.inr (.inr hb')) (.inl ?_)
    cases pc <;> simp [Pc.borrows] at hb' <;> rfl
  · rw [Bool.not_eq_true] at hb
    cases hl : s.sh.locked with
    | false =>
      cases ha : s.acts with
      | nil => exact absurd ha h
      | cons pc l => exact go pc (by simp [ha]) (.inl hl) (.inr hb)
    | true =>
      have hlk := hi.lock
      rw [hl] at hlk
      obtain ⟨pc, hpc, h1⟩ := exists_of_total_pos (f := Pc.holds) (l := s.acts) (by
        rw [← hlk]; decide)
      refine go pc hpc (.inr (.inl ?_)) (.inr hb)
      cases pc <;> simp [Pc.holds] at h1 ⊢

/-- Letting the running calls finish. -/
theorem exists_finished : ∀ (n : Nat) (s : St R), Inv s → total Pc.work s.acts ≤ n →
    ∃ k s', Runs k s s' ∧ s'.acts = []
  | n, s, hi, hn => by
    by_cases h : s.acts = []
    · exact ⟨0, s, .refl s, h⟩
    · obtain ⟨s₁, h1⟩ := exists_run hi h
      have hw := run_work h1
      match n with
      | 0 => omega
      | n + 1 =>
        obtain ⟨k, s', h2, h3⟩ := exists_finished n s₁ (inv_run hi h1) (by omega)
        exact ⟨k + 1, s', h2.head h1, h3⟩

/-! ### Wakes -/

/-- A wake happened and no continuation was called since. -/
def owed (log : List (Ev R)) : Bool :=
  log.foldl (fun b e => match e with
    | .woke => true
    | .invoked _ _ => false
    | _ => b) false

theorem owed_snoc (log : List (Ev R)) (e : Ev R) :
    owed (log ++ [e]) = match e with
      | .woke => true
      | .invoked _ _ => false
      | _ => owed log := by
  simp [owed]

/-- About to call a continuation. -/
def Pc.invoking : Pc → Bool
  | .invoke _ _ _ => true
  | _ => false

/-- A wake that nobody was told of yet is remembered. -/
def Remembered (s : St R) : Prop :=
  owed s.sh.log = true → s.acts.any Pc.invoking = true ∨ s.sh.sched = .waked ∨
    s.sh.sched = .cancelled

theorem owed_dropArc (sh : Shared R) : owed sh.dropArc.log = owed sh.log := by
  unfold Shared.dropArc
  split
  · split <;> simp only [Shared.add, owed_snoc]
  · rfl

theorem owed_freeInner (sh : Shared R) : owed sh.freeInner.log = owed sh.log := by
  unfold Shared.freeInner
  split <;> simp only [Shared.add, owed_snoc]

theorem sched_dropArc (sh : Shared R) : sh.dropArc.sched = sh.sched := by
  unfold Shared.dropArc
  split
  · split <;> rfl
  · rfl

theorem sched_freeInner (sh : Shared R) : sh.freeInner.sched = sh.sched := by
  unfold Shared.freeInner
  split <;> rfl

/-- One step either calls a continuation, or keeps what is remembered. -/
theorem step_remembered {o : Option R} {sh sh' : Shared R} {pc : Pc} {pc' : Option Pc}
    (h : step o sh pc = some (pc', sh')) :
    owed sh'.log = false ∨ pc'.toList.any Pc.invoking = true ∨ sh'.sched = .waked ∨
      sh'.sched = .cancelled ∨
      (owed sh'.log = owed sh.log ∧ sh'.sched = sh.sched ∧ pc.invoking = false) ∨
      (owed sh'.log = owed sh.log ∧ sh.sched ≠ .waked ∧ sh.sched ≠ .cancelled ∧
        pc.invoking = false) := by
  cases pc with
  | store cb =>
    simp only [step, Option.some.injEq, Prod.mk.injEq] at h
    obtain ⟨rfl, rfl⟩ := h
    cases hs : sh.sched <;> simp [Sched.store, invokeThen, After.pc, Pc.invoking, Shared.touch]
  | invoke cb p k =>
    simp only [step, Option.some.injEq, Prod.mk.injEq] at h
    obtain ⟨rfl, rfl⟩ := h
    left; simp only [Shared.add, owed_snoc]
  | cancel free =>
    simp only [step, Option.some.injEq, Prod.mk.injEq] at h
    obtain ⟨rfl, rfl⟩ := h
    right; right; right; left
    cases hs : sh.sched <;> simp [Sched.cancel, Shared.add]
  | wake owns =>
    simp only [step, Option.some.injEq, Prod.mk.injEq] at h
    obtain ⟨rfl, rfl⟩ := h
    cases hs : sh.sched <;> simp [Sched.wake, invokeThen, After.pc, Pc.invoking, Shared.add]
  | pollStart cb =>
    simp only [step] at h
    split at h <;> simp only [Option.some.injEq, Prod.mk.injEq] at h <;> obtain ⟨rfl, rfl⟩ := h <;>
      simp [Pc.invoking, Shared.touch]
  | pollLock cb =>
    simp only [step] at h
    split at h <;> simp only [Option.some.injEq, Prod.mk.injEq, reduceCtorEq] at h
    obtain ⟨rfl, rfl⟩ := h; simp [Pc.invoking, Shared.touch]
  | freeLock =>
    simp only [step] at h
    split at h <;> simp only [Option.some.injEq, Prod.mk.injEq, reduceCtorEq] at h
    obtain ⟨rfl, rfl⟩ := h; simp [Pc.invoking, Shared.touch]
  | complLock =>
    simp only [step] at h
    split at h <;> simp only [Option.some.injEq, Prod.mk.injEq, reduceCtorEq] at h
    obtain ⟨rfl, rfl⟩ := h; simp [Pc.invoking, Shared.touch]
  | pollBody cb =>
    simp only [step] at h
    split at h
    · simp only [Option.some.injEq, Prod.mk.injEq] at h; obtain ⟨rfl, rfl⟩ := h
      simp [Pc.invoking, Shared.touch]
    · split at h <;> simp only [Option.some.injEq, Prod.mk.injEq] at h <;>
        obtain ⟨rfl, rfl⟩ := h <;> simp [Pc.invoking, Shared.touch, Shared.add, owed_snoc]
  | inFuture cb =>
    simp only [step] at h
    cases o <;> simp only [Option.some.injEq, Prod.mk.injEq] at h <;> obtain ⟨rfl, rfl⟩ := h
    · simp [Pc.invoking]
    · right; right; right; right; left
      simp only [Shared.add, owed_snoc, Pc.invoking]
      simp [Shared.touch]
  | pollUnlock cb ready =>
    simp only [step] at h
    split at h <;> simp only [Option.some.injEq, Prod.mk.injEq] at h <;> obtain ⟨rfl, rfl⟩ := h <;>
      simp [Pc.invoking, Shared.touch]
  | pollDropWaker cb ready =>
    simp only [step, Option.some.injEq, Prod.mk.injEq] at h
    obtain ⟨rfl, rfl⟩ := h
    simp [Pc.invoking, owed_dropArc, sched_dropArc, Shared.touch]
  | dropArc =>
    simp only [step, Option.some.injEq, Prod.mk.injEq] at h
    obtain ⟨rfl, rfl⟩ := h
    simp [Pc.invoking, owed_dropArc, sched_dropArc, Shared.touch]
  | freeBody =>
    simp only [step, Option.some.injEq, Prod.mk.injEq] at h
    obtain ⟨rfl, rfl⟩ := h
    right; right; right; right; left
    refine ⟨?_, ?_, rfl⟩
    · simp only [Shared.add, owed_snoc]; rw [owed_freeInner]; rfl
    · show (sh.touch.freeInner).sched = _; rw [sched_freeInner]; rfl
  | complBody =>
    simp only [step, Option.some.injEq, Prod.mk.injEq] at h
    obtain ⟨rfl, rfl⟩ := h
    right; right; right; right; left
    refine ⟨?_, ?_, rfl⟩
    · simp only [Shared.add, owed_snoc]; rw [owed_freeInner]; rfl
    · show (sh.touch.freeInner).sched = _; rw [sched_freeInner]; rfl
  | _ =>
    simp only [step, Option.some.injEq, Prod.mk.injEq] at h
    obtain ⟨rfl, rfl⟩ := h
    simp [Pc.invoking, Shared.touch]

theorem remembered_run {s s' : St R} (hr : Remembered s) (h : Run s s') : Remembered s' := by
  cases h with
  | mk l₁ l₂ pc o sh sh' pc' h hb =>
    intro ho
    dsimp only at ho ⊢
    simp only [Remembered, List.any_append, List.any_cons, Bool.or_eq_true] at hr ⊢
    rcases step_remembered h with h1 | h1 | h1 | h1 | ⟨h1, h2, h3⟩ | ⟨h1, h2, h3, h4⟩
    · rw [h1] at ho; cases ho
    · exact .inl (.inl (.inr h1))
    · exact .inr (.inl h1)
    · exact .inr (.inr h1)
    · rw [h1] at ho
      rcases hr ho with (x | x | x) | x | x
      · exact .inl (.inl (.inl x))
      · rw [h3] at x; cases x
      · exact .inl (.inr x)
      · exact .inr (.inl (by rw [h2, x]))
      · exact .inr (.inr (by rw [h2, x]))
    · rw [h1] at ho
      rcases hr ho with (x | x | x) | x | x
      · exact .inl (.inl (.inl x))
      · rw [h4] at x; cases x
      · exact .inl (.inr x)
      · exact absurd x h2
      · exact absurd x h3

theorem remembered_start {s s' : St R} (hr : Remembered s) {op : Op} (h : start s op = some s') :
    Remembered s' := by
  unfold Remembered at hr ⊢
  cases op <;> simp only [start] at h <;> split at h <;>
    simp only [Option.some.injEq, reduceCtorEq] at h <;> subst h <;>
    simp only [Shared.add, owed_snoc, Shared.touch, List.any_append, Bool.or_eq_true] <;>
    intro ho <;> have := hr ho <;> rcases this with x | x | x <;> simp [x]

theorem Reachable.remembered {s : St R} (h : Reachable s) : Remembered s := by
  unfold Reachable at h
  induction h with
  | refl => intro h; simp [init, owed] at h
  | tail a b _ hst ih =>
    cases hst with
    | start op h hb => exact remembered_start ih h
    | run h => exact remembered_run ih h

/-! ### One continuation at a time -/

/-- Steps that have nothing to do with continuations. -/
def Pc.quiet : Pc → Bool
  | .store _ => false
  | .invoke _ _ _ => false
  | .cancel _ => false
  | .wake _ => false
  | _ => true

/-- Events that have nothing to do with continuations. -/
def Ev.quiet : Ev R → Bool
  | .started _ => false
  | .woke => false
  | .invoked _ _ => false
  | _ => true

theorem step_quiet {o : Option R} {sh sh' : Shared R} {pc : Pc} {pc' : Option Pc}
    (hq : pc.quiet = true) (h : step o sh pc = some (pc', sh')) :
    sh'.sched = sh.sched ∧ ∃ evs, sh'.log = sh.log ++ evs ∧ ∀ e ∈ evs, e.quiet = true := by
  cases pc with
  | store cb => cases hq
  | invoke cb p k => cases hq
  | cancel free => cases hq
  | wake owns => cases hq
  | pollStart cb =>
    simp only [step] at h
    split at h <;> simp only [Option.some.injEq, Prod.mk.injEq] at h <;> obtain ⟨rfl, rfl⟩ := h <;>
      exact ⟨rfl, [], by simp [Shared.touch], by simp⟩
  | pollLock cb =>
    simp only [step] at h
    split at h <;> simp only [Option.some.injEq, Prod.mk.injEq, reduceCtorEq] at h
    obtain ⟨rfl, rfl⟩ := h; exact ⟨rfl, [], by simp [Shared.touch], by simp⟩
  | freeLock =>
    simp only [step] at h
    split at h <;> simp only [Option.some.injEq, Prod.mk.injEq, reduceCtorEq] at h
    obtain ⟨rfl, rfl⟩ := h; exact ⟨rfl, [], by simp [Shared.touch], by simp⟩
  | complLock =>
    simp only [step] at h
    split at h <;> simp only [Option.some.injEq, Prod.mk.injEq, reduceCtorEq] at h
    obtain ⟨rfl, rfl⟩ := h; exact ⟨rfl, [], by simp [Shared.touch], by simp⟩
  | pollBody cb =>
    simp only [step] at h
    split at h
    · simp only [Option.some.injEq, Prod.mk.injEq] at h; obtain ⟨rfl, rfl⟩ := h
      exact ⟨rfl, [], by simp [Shared.touch], by simp⟩
    · split at h <;> simp only [Option.some.injEq, Prod.mk.injEq] at h <;>
        obtain ⟨rfl, rfl⟩ := h
      · exact ⟨rfl, [.innerPoll cb], by simp [Shared.touch, Shared.add], by simp [Ev.quiet]⟩
      · exact ⟨rfl, [], by simp [Shared.touch], by simp⟩
  | inFuture cb =>
    simp only [step] at h
    cases o <;> simp only [Option.some.injEq, Prod.mk.injEq] at h <;> obtain ⟨rfl, rfl⟩ := h
    · exact ⟨rfl, [], by simp, by simp⟩
    · rename_i r
      exact ⟨rfl, [.innerReady r, .innerDropped], by simp [Shared.touch, Shared.add],
        by simp [Ev.quiet]⟩
  | pollUnlock cb ready =>
    simp only [step] at h
    split at h <;> simp only [Option.some.injEq, Prod.mk.injEq] at h <;> obtain ⟨rfl, rfl⟩ := h <;>
      exact ⟨rfl, [], by simp [Shared.touch], by simp⟩
  | pollDropWaker cb ready =>
    simp only [step, Option.some.injEq, Prod.mk.injEq] at h
    obtain ⟨rfl, rfl⟩ := h
    refine ⟨by rw [sched_dropArc]; rfl, ?_⟩
    unfold Shared.dropArc
    split
    · split
      · exact ⟨[.innerDropped, .released], by simp [Shared.touch, Shared.add], by simp [Ev.quiet]⟩
      · exact ⟨[.released], by simp [Shared.touch, Shared.add], by simp [Ev.quiet]⟩
    · exact ⟨[], by simp [Shared.touch], by simp⟩
  | dropArc =>
    simp only [step, Option.some.injEq, Prod.mk.injEq] at h
    obtain ⟨rfl, rfl⟩ := h
    refine ⟨by rw [sched_dropArc]; rfl, ?_⟩
    unfold Shared.dropArc
    split
    · split
      · exact ⟨[.innerDropped, .released], by simp [Shared.touch, Shared.add], by simp [Ev.quiet]⟩
      · exact ⟨[.released], by simp [Shared.touch, Shared.add], by simp [Ev.quiet]⟩
    · exact ⟨[], by simp [Shared.touch], by simp⟩
  | freeBody =>
    simp only [step, Option.some.injEq, Prod.mk.injEq] at h
    obtain ⟨rfl, rfl⟩ := h
    refine ⟨by show (sh.touch.freeInner).sched = _; rw [sched_freeInner]; rfl, ?_⟩
    unfold Shared.freeInner
    split
    · exact ⟨[.innerDropped, .freed], by simp [Shared.touch, Shared.add], by simp [Ev.quiet]⟩
    · exact ⟨[.freed], by simp [Shared.touch, Shared.add], by simp [Ev.quiet]⟩
  | complBody =>
    simp only [step, Option.some.injEq, Prod.mk.injEq] at h
    obtain ⟨rfl, rfl⟩ := h
    refine ⟨by show (sh.touch.freeInner).sched = _; rw [sched_freeInner]; rfl, ?_⟩
    unfold Shared.freeInner
    split
    · exact ⟨[.innerDropped, .completed sh.result], by simp [Shared.touch, Shared.add],
        by simp [Ev.quiet]⟩
    · exact ⟨[.completed sh.result], by simp [Shared.touch, Shared.add], by simp [Ev.quiet]⟩
  | _ =>
    simp only [step, Option.some.injEq, Prod.mk.injEq] at h
    obtain ⟨rfl, rfl⟩ := h
    exact ⟨rfl, [], by simp [Shared.touch], by simp⟩

theorem calls_quiet (cb : Nat) {evs : List (Ev R)} (h : ∀ e ∈ evs, e.quiet = true) :
    calls cb evs = 0 := by
  induction evs with
  | nil => rfl
  | cons e l ih =>
    have h1 := h e (by simp)
    have h2 := ih fun x hx => h x (by simp [hx])
    cases e <;> simp_all [calls, Ev.quiet]

theorem later_quiet {a b : Ev R} (hb : b.quiet = false) {evs : List (Ev R)}
    (h : ∀ e ∈ evs, e.quiet = true) (log : List (Ev R)) :
    Later a b (log ++ evs) ↔ Later a b log := by
  induction evs generalizing log with
  | nil => simp
  | cons e l ih =>
    rw [show log ++ e :: l = (log ++ [e]) ++ l by simp, ih (fun x hx => h x (by simp [hx])),
      later_snoc]
    have : e ≠ b := by
      rintro rfl; rw [h e (by simp)] at hb; cases hb
    simp [this]

/-- The log only grows. -/
theorem step_log {o : Option R} {sh sh' : Shared R} {pc : Pc} {pc' : Option Pc}
    (h : step o sh pc = some (pc', sh')) : ∃ evs, sh'.log = sh.log ++ evs := by
  by_cases hq : pc.quiet = true
  · obtain ⟨_, evs, h1, _⟩ := step_quiet hq h
    exact ⟨evs, h1⟩
  · cases pc <;> simp [Pc.quiet] at hq <;> simp only [step, Option.some.injEq, Prod.mk.injEq] at h <;>
      obtain ⟨_, rfl⟩ := h
    · exact ⟨[], by simp [Shared.touch]⟩
    · exact ⟨_, rfl⟩
    · exact ⟨_, rfl⟩
    · exact ⟨_, rfl⟩

theorem start_log {s s' : St R} {op : Op} (h : start s op = some s') :
    ∃ evs, s'.sh.log = s.sh.log ++ evs := by
  cases op <;> simp only [start] at h <;> split at h <;>
    simp only [Option.some.injEq, reduceCtorEq] at h <;> subst h
  · exact ⟨_, rfl⟩
  all_goals exact ⟨[], by simp [Shared.touch]⟩

theorem Step.log {s s' : St R} (h : Step s s') : ∃ evs, s'.sh.log = s.sh.log ++ evs := by
  cases h with
  | start op h _ => exact start_log h
  | run h => cases h with | mk _ _ _ _ _ _ _ h _ => exact step_log h

theorem Steps.log {s s' : St R} (h : Steps s s') : ∃ evs, s'.sh.log = s.sh.log ++ evs := by
  induction h with
  | refl => exact ⟨[], by simp⟩
  | tail _ _ _ h ih =>
    obtain ⟨a, ha⟩ := ih
    obtain ⟨b, hb⟩ := h.log
    exact ⟨a ++ b, by rw [hb, ha, List.append_assoc]⟩

theorem later_mono {a b : Ev R} {log evs : List (Ev R)} (h : Later a b log) :
    Later a b (log ++ evs) := by
  obtain ⟨p, q, rfl, hm⟩ := h
  exact ⟨p, q ++ evs, by simp, by simp [hm]⟩

/-- Executions in which foreign code polls only after every earlier continuation was called, as
the documentation of the module asks (future.rs:9-27) and the generated code does. -/
inductive Disciplined : St R → Prop
  | init : Disciplined Async.init
  | start (s s' : St R) (op : Op) : Disciplined s → Async.start s op = some s' → s'.BorrowsLive →
    (op = .poll → ∀ cb, Ev.started cb ∈ s.sh.log → calls cb s.sh.log = 1) → Disciplined s'
  | run (s s' : St R) : Disciplined s → Run s s' → Disciplined s'

theorem Disciplined.reachable {s : St R} (h : Disciplined s) : Reachable s := by
  induction h with
  | init => exact .refl _
  | start s s' op _ h hb _ ih => exact ih.step (.start _ _ op h hb)
  | run s s' _ h ih => exact ih.step (.run _ _ h)

theorem Disciplined.runs {n : Nat} {s s' : St R} (h : Disciplined s) (h' : Runs n s s') :
    Disciplined s' := by
  induction h' with
  | refl => exact h
  | tail n s a b _ hr ih => exact .run _ _ (ih h) hr

/-- With one continuation at a time, a wake after a poll began reaches its continuation. -/
structure OneAtATime (s : St R) : Prop where
  old : ∀ c, c + 1 < s.sh.nextCb → calls c s.sh.log = 1
  told : ∀ cb, Later (.started cb) .woke s.sh.log → calls cb s.sh.log = 0 →
    (∃ p k, Pc.invoke cb p k ∈ s.acts) ∨ s.sh.sched = .waked ∨ s.sh.sched = .cancelled

theorem later_mem {a b : Ev R} {log : List (Ev R)} (h : Later a b log) : a ∈ log := by
  obtain ⟨p, q, rfl, _⟩ := h; simp

theorem OneAtATime.start {s s' : St R} {op : Op} (hi : Inv s) (f : Facts s.sh) (ho : OneAtATime s)
    (h : Async.start s op = some s')
    (hd : op = .poll → ∀ cb, Ev.started cb ∈ s.sh.log → calls cb s.sh.log = 1) :
    OneAtATime s' := by
  obtain ⟨h1, h2⟩ := ho
  cases op <;> simp only [Async.start] at h <;> split at h <;>
    simp only [Option.some.injEq, reduceCtorEq] at h <;> subst h
  case poll.isTrue hh =>
    refine ⟨?_, ?_⟩
    · intro c hc
      have hc' : c + 1 < s.sh.nextCb + 1 := hc
      have := hd rfl c ((f.started c).2 (by omega))
      simpa [Shared.add, Shared.touch, calls] using this
    · intro cb hl h0
      simp only [Shared.add, Shared.touch, later_snoc, reduceCtorEq, false_and, or_false] at hl
      simp only [Shared.add, Shared.touch, calls_append, calls, Nat.add_zero] at h0
      rcases h2 cb hl h0 with ⟨p, k, x⟩ | x | x
      · exact .inl ⟨p, k, by simp [x]⟩
      · exact .inr (.inl x)
      · exact .inr (.inr x)
  all_goals
    refine ⟨h1, fun cb hl h0 => ?_⟩
    rcases h2 cb hl h0 with ⟨p, k, x⟩ | x | x
    · exact .inl ⟨p, k, by simp [x]⟩
    · exact .inr (.inl x)
    · exact .inr (.inr x)

/-- A continuation that somebody still has to deal with is the last one. -/
theorem OneAtATime.last {s : St R} (hi : Inv s) (ho : OneAtATime s) {cb : Nat}
    (h : 0 < s.sh.sched.token cb + total (Pc.token cb) s.acts) : cb + 1 = s.sh.nextCb := by
  have h1 := hi.token cb
  have h2 : cb < s.sh.nextCb := by
    apply Decidable.byContradiction
    intro hn
    rw [if_neg hn] at h1
    omega
  rw [if_pos h2] at h1
  apply Decidable.byContradiction
  intro hn
  have := ho.old cb (by omega)
  omega

theorem OneAtATime.run {s s' : St R} (hi : Inv s) (f : Facts s.sh) (ho : OneAtATime s)
    (h : Run s s') : OneAtATime s' := by
  have hi' := inv_run hi h
  have hlast := fun cb => ho.last hi (cb := cb)
  obtain ⟨h1, h2⟩ := ho
  cases h with
  | mk l₁ l₂ pc o sh sh' pc' h hb =>
    obtain ⟨hc, ha, hl⟩ := hi.step_hyps
    have hn := (step_local h hc ha hl).2.2.2.1
    obtain ⟨evs, hlog⟩ := step_log h
    dsimp only at *
    refine ⟨fun c hlt => ?_, fun cb hlt h0 => ?_⟩
    · dsimp only at hlt ⊢
      rw [hn] at hlt
      have a := h1 c hlt
      have b := hi'.token c
      dsimp only at b
      rw [hn, if_pos (by omega)] at b
      rw [hlog, calls_append, a] at b ⊢
      omega
    · dsimp only at hlt h0 ⊢
      have h0' : calls cb sh.log = 0 := by
        rw [hlog, calls_append] at h0; omega
      -- A continuation not yet called is the last.
      have hcb : Ev.started cb ∈ sh.log → cb + 1 = sh.nextCb := by
        intro hm
        have hlt := (f.started cb).1 hm
        apply Decidable.byContradiction
        intro hx
        have := h1 cb (by omega)
        omega
      by_cases hq : pc.quiet = true
      · obtain ⟨hs, evs', hlog', hev⟩ := step_quiet hq h
        rw [hlog', later_quiet rfl hev] at hlt
        rcases h2 cb hlt h0' with ⟨p, k, x⟩ | x | x
        · refine .inl ⟨p, k, ?_⟩
          simp only [List.mem_append, List.mem_cons] at x ⊢
          rcases x with x | x | x
          · exact .inl (.inl x)
          · subst x; cases hq
          · exact .inr x
        · exact .inr (.inl (by rw [hs, x]))
        · exact .inr (.inr (by rw [hs, x]))
      · cases pc with
        | store c =>
          simp only [step, Shared.touch_eq hc, Option.some.injEq, Prod.mk.injEq] at h
          obtain ⟨rfl, rfl⟩ := h
          rcases h2 cb hlt h0' with ⟨p, k, x⟩ | x | x
          · refine .inl ⟨p, k, ?_⟩
            simp only [List.mem_append, List.mem_cons, reduceCtorEq, false_or] at x ⊢
            rcases x with x | x
            · exact .inl (.inl x)
            · exact .inr x
          · left
            have e1 : c + 1 = sh.nextCb := hlast c (by
              simp only [total_append, total_cons, Pc.token, if_true]; omega)
            have e2 := hcb (later_mem hlt)
            have : c = cb := by omega
            subst this
            exact ⟨.wake, .dropArc, by simp [x, Sched.store, invokeThen]⟩
          · exact .inr (.inr (by simp [x, Sched.store]))
        | invoke c p k =>
          simp only [step, Option.some.injEq, Prod.mk.injEq] at h
          obtain ⟨rfl, rfl⟩ := h
          simp only [Shared.add, later_snoc, reduceCtorEq, false_and, or_false] at hlt
          simp only [Shared.add, calls_append, calls, Nat.add_zero] at h0
          have hne : c ≠ cb := by
            intro hx; rw [if_pos hx] at h0; omega
          rcases h2 cb hlt h0' with ⟨p', k', x⟩ | x | x
          · refine .inl ⟨p', k', ?_⟩
            simp only [List.mem_append, List.mem_cons, Pc.invoke.injEq] at x ⊢
            rcases x with x | x | x
            · exact .inl (.inl x)
            · exact absurd x.1.symm hne
            · exact .inr x
          · exact .inr (.inl x)
          · exact .inr (.inr x)
        | cancel free =>
          simp only [step, Shared.touch_eq hc, Option.some.injEq, Prod.mk.injEq] at h
          obtain ⟨rfl, rfl⟩ := h
          refine .inr (.inr ?_)
          cases hs : sh.sched <;> rfl
        | wake owns =>
          simp only [step, Shared.touch_eq hc, Option.some.injEq, Prod.mk.injEq] at h
          obtain ⟨rfl, rfl⟩ := h
          simp only [Shared.add, later_snoc, true_and] at hlt
          have hm : Ev.started cb ∈ sh.log := by
            rcases hlt with x | x
            · exact later_mem x
            · exact x
          have hw : ∀ x, sh.sched = x → (({ sh with sched := sh.sched.wake.1 }).add
              Ev.woke).sched = x.wake.1 := by
            intro x hx; subst hx; rfl
          generalize hs : sh.sched = x at hw ⊢
          cases x with
          | empty => exact .inr (.inl (hw _ rfl))
          | waked => exact .inr (.inl (hw _ rfl))
          | cancelled => exact .inr (.inr (hw _ rfl))
          | set c =>
            left
            have e1 : c + 1 = sh.nextCb := hlast c (by rw [hs]; simp [Sched.token]; omega)
            have e2 := hcb hm
            have : c = cb := by omega
            subst this
            exact ⟨.wake, _, by simp [Sched.wake, invokeThen]; exact .inr (.inl rfl)⟩
        | _ => simp [Pc.quiet] at hq

theorem Disciplined.oneAtATime {s : St R} (h : Disciplined s) : OneAtATime s := by
  induction h with
  | init => exact ⟨by simp [Async.init], fun cb h => absurd h (later_nil _ _)⟩
  | start s s' op hd h hb hc ih =>
    exact ih.start hd.reachable.inv hd.reachable.facts.1 h hc
  | run s s' hd h ih => exact ih.run hd.reachable.inv hd.reachable.facts.1 h

/-! ### No spurious wakes -/

/-- How often a continuation was told to poll again. -/
def wakesTold : List (Ev R) → Nat
  | [] => 0
  | .invoked _ .wake :: l => wakesTold l + 1
  | _ :: l => wakesTold l

/-- How often a waker fired. -/
def wakesFired : List (Ev R) → Nat
  | [] => 0
  | .woke :: l => wakesFired l + 1
  | _ :: l => wakesFired l

theorem wakesTold_append (l m : List (Ev R)) : wakesTold (l ++ m) = wakesTold l + wakesTold m := by
  induction l with
  | nil => simp [wakesTold]
  | cons e l ih =>
    cases e with
    | invoked c p => cases p <;> simp [wakesTold, ih]; omega
    | _ => simp [wakesTold, ih]

theorem wakesFired_append (l m : List (Ev R)) :
    wakesFired (l ++ m) = wakesFired l + wakesFired m := by
  induction l with
  | nil => simp [wakesFired]
  | cons e l ih => cases e <;> simp [wakesFired, ih]; omega

theorem wakes_quiet {evs : List (Ev R)} (h : ∀ e ∈ evs, e.quiet = true) :
    wakesTold evs = 0 ∧ wakesFired evs = 0 := by
  induction evs with
  | nil => exact ⟨rfl, rfl⟩
  | cons e l ih =>
    have h1 := h e (by simp)
    have h2 := ih fun x hx => h x (by simp [hx])
    cases e <;> simp_all [wakesTold, wakesFired, Ev.quiet]

/-- About to tell a continuation to poll again. -/
def Pc.telling : Pc → Nat
  | .invoke _ .wake _ => 1
  | _ => 0

/-- Wakes remembered by the scheduler. -/
def Sched.kept : Sched → Nat
  | .waked => 1
  | _ => 0

/-- Every "poll again", said or about to be said, is paid for by a wake. -/
def Paid (s : St R) : Prop :=
  wakesTold s.sh.log + total Pc.telling s.acts + s.sh.sched.kept ≤ wakesFired s.sh.log

theorem step_quiet_next {o : Option R} {sh sh' : Shared R} {pc : Pc} {pc' : Option Pc}
    (hq : pc.quiet = true) (h : step o sh pc = some (pc', sh')) :
    total Pc.telling pc'.toList = 0 := by
  cases pc with
  | store cb => cases hq
  | invoke cb p k => cases hq
  | cancel free => cases hq
  | wake owns => cases hq
  | pollBody cb =>
    simp only [step] at h
    split at h
    · simp only [Option.some.injEq, Prod.mk.injEq] at h; obtain ⟨rfl, rfl⟩ := h
      rfl
    · split at h <;> simp only [Option.some.injEq, Prod.mk.injEq] at h <;>
        obtain ⟨rfl, rfl⟩ := h <;> rfl
  | inFuture cb =>
    simp only [step] at h
    cases o <;> simp only [Option.some.injEq, Prod.mk.injEq] at h <;> obtain ⟨rfl, rfl⟩ := h <;>
      rfl
  | _ =>
    simp only [step] at h
    try split at h
    all_goals
      simp only [Option.some.injEq, Prod.mk.injEq, reduceCtorEq] at h
      try (obtain ⟨rfl, rfl⟩ := h; rfl)

theorem Paid.start {s s' : St R} {op : Op} (hp : Paid s) (h : Async.start s op = some s') :
    Paid s' := by
  unfold Paid at hp ⊢
  cases op <;> simp only [Async.start] at h <;> split at h <;>
    simp only [Option.some.injEq, reduceCtorEq] at h <;> subst h <;>
    simp_all [Shared.add, Shared.touch, total_append, total_cons, Pc.telling, wakesTold_append,
      wakesFired_append, wakesTold, wakesFired, total]

theorem Paid.run {s s' : St R} (hi : Inv s) (ho : OneAtATime s) (hp : Paid s) (h : Run s s') :
    Paid s' := by
  have hlast := fun cb => ho.last hi (cb := cb)
  have htok := hi.token
  cases h with
  | mk l₁ l₂ pc o sh sh' pc' h hb =>
    obtain ⟨hc, ha, hl⟩ := hi.step_hyps
    unfold Paid at hp ⊢
    dsimp only at *
    simp only [total_append, total_cons] at hp htok hlast ⊢
    by_cases hq : pc.quiet = true
    · obtain ⟨hs, evs, hlog, hev⟩ := step_quiet hq h
      have h0 := step_quiet_next hq h
      obtain ⟨h1, h2⟩ := wakes_quiet hev
      rw [hs, hlog, wakesTold_append, wakesFired_append, h0, h1, h2]
      omega
    · cases pc with
      | store c =>
        simp only [step, Shared.touch_eq hc, Option.some.injEq, Prod.mk.injEq] at h
        obtain ⟨rfl, rfl⟩ := h
        dsimp only at *
        generalize hs : sh.sched = x at *
        cases x with
        | set old =>
          exfalso
          have e1 : c + 1 = sh.nextCb := hlast c (by simp only [Pc.token, if_true]; omega)
          have e2 : old + 1 = sh.nextCb := hlast old (by simp [Sched.token]; omega)
          have : old = c := by omega
          subst this
          have := htok old
          rw [if_pos (by omega)] at this
          simp only [Sched.token, Pc.token, if_true] at this
          omega
        | _ => simp [Sched.store, invokeThen, After.pc, Pc.telling, Sched.kept, total] at hp ⊢; omega
      | invoke c p k =>
        simp only [step, Option.some.injEq, Prod.mk.injEq] at h
        obtain ⟨rfl, rfl⟩ := h
        cases p <;> cases k <;> simp [Shared.add, wakesTold_append, wakesFired_append, wakesTold,
          wakesFired, After.pc, Pc.telling, total] at hp ⊢ <;> omega
      | cancel free =>
        simp only [step, Shared.touch_eq hc, Option.some.injEq, Prod.mk.injEq] at h
        obtain ⟨rfl, rfl⟩ := h
        dsimp only [Shared.add] at *
        generalize hs : sh.sched = x at *
        cases x <;> cases free <;> simp [Sched.cancel, invokeThen, After.pc, Pc.telling, Sched.kept, total,
          wakesTold_append, wakesFired_append, wakesTold, wakesFired] at hp ⊢ <;> omega
      | wake owns =>
        simp only [step, Shared.touch_eq hc, Option.some.injEq, Prod.mk.injEq] at h
        obtain ⟨rfl, rfl⟩ := h
        dsimp only [Shared.add] at *
        generalize hs : sh.sched = x at *
        cases x <;> cases owns <;> simp [Sched.wake, invokeThen, After.pc, Pc.telling, Sched.kept, total,
          wakesTold_append, wakesFired_append, wakesTold, wakesFired] at hp ⊢ <;> omega
      | _ => simp [Pc.quiet] at hq

theorem Disciplined.paid {s : St R} (h : Disciplined s) : Paid s := by
  induction h with
  | init => simp [Paid, Async.init, wakesTold, Sched.kept, total]
  | start s s' op hd h hb hc ih => exact ih.start h
  | run s s' hd h ih => exact ih.run hd.reachable.inv hd.oneAtATime h

end Verif.Async
