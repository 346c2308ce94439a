import Verif.Async.RustFuture
/-
Invariants of the Rust future transition system.
-/
namespace Verif.Async
open Verif

variable {R : Type}

/-! ### Sums over running calls -/

/-- Sum of a weight over the running calls. -/
def total (f : Pc → Nat) (l : List Pc) : Nat := (l.map f).sum

@[simp] theorem total_nil (f : Pc → Nat) : total f [] = 0 := rfl
@[simp] theorem total_cons (f : Pc → Nat) (a : Pc) (l : List Pc) :
    total f (a :: l) = f a + total f l := by simp [total]
@[simp] theorem total_append (f : Pc → Nat) (a b : List Pc) :
    total f (a ++ b) = total f a + total f b := by simp [total]

theorem le_total (f : Pc → Nat) {a : Pc} {l : List Pc} (h : a ∈ l) : f a ≤ total f l := by
  induction l with
  | nil => cases h
  | cons b l ih =>
    rcases List.mem_cons.1 h with rfl | h
    · simp
    · have := ih h; simp; omega

theorem total_eq_zero {f : Pc → Nat} {l : List Pc} (h : total f l = 0) : ∀ a ∈ l, f a = 0 :=
  fun a ha => Nat.eq_zero_of_le_zero (h ▸ le_total f ha)

theorem exists_of_total_pos {f : Pc → Nat} {l : List Pc} (h : 0 < total f l) :
    ∃ a ∈ l, 0 < f a := by
  induction l with
  | nil => simp at h
  | cons b l ih =>
    by_cases hb : 0 < f b
    · exact ⟨b, by simp, hb⟩
    · obtain ⟨a, ha, h'⟩ := ih (by simp at h; omega)
      exact ⟨a, by simp [ha], h'⟩

/-- References a running call owns. -/
def Pc.arcs : Pc → Nat
  | .inFuture _ => 2
  | .pollDropWaker _ _ => 2
  | .invoke _ _ .done => 0
  | .wake false => 0
  | _ => 1

/-- Whether a running call holds the future mutex. -/
def Pc.holds : Pc → Nat
  | .pollBody _ => 1
  | .inFuture _ => 1
  | .pollDropWaker _ _ => 1
  | .pollUnlock _ _ => 1
  | .freeBody => 1
  | .freeUnlock => 1
  | .complBody => 1
  | .complUnlock => 1
  | _ => 0

/-- Whether a running call still has to do something with the continuation `cb`. -/
def Pc.token (cb : Nat) : Pc → Nat
  | .pollStart c => if c = cb then 1 else 0
  | .pollLock c => if c = cb then 1 else 0
  | .pollBody c => if c = cb then 1 else 0
  | .inFuture c => if c = cb then 1 else 0
  | .pollDropWaker c _ => if c = cb then 1 else 0
  | .pollUnlock c _ => if c = cb then 1 else 0
  | .store c => if c = cb then 1 else 0
  | .invoke c _ _ => if c = cb then 1 else 0
  | _ => 0

/-- Whether the scheduler holds the continuation `cb`. -/
def Sched.token (cb : Nat) : Sched → Nat
  | .set c => if c = cb then 1 else 0
  | _ => 0

/-- How often the continuation `cb` was called. -/
def calls (cb : Nat) : List (Ev R) → Nat
  | [] => 0
  | .invoked c _ :: l => (if c = cb then 1 else 0) + calls cb l
  | _ :: l => calls cb l

@[simp] theorem calls_append (cb : Nat) (a b : List (Ev R)) :
    calls cb (a ++ b) = calls cb a + calls cb b := by
  induction a with
  | nil => simp [calls]
  | cons e a ih => cases e <;> simp [calls, ih, Nat.add_assoc]

/-! ### The basic invariant -/

/-- Reference counting, locking and continuations add up. -/
structure Inv (s : St R) : Prop where
  count : s.sh.count = s.sh.handle.toNat + s.sh.wakers + total Pc.arcs s.acts
  lock : s.sh.locked.toNat = total Pc.holds s.acts
  token : ∀ cb, calls cb s.sh.log + s.sh.sched.token cb + total (Pc.token cb) s.acts =
    if cb < s.sh.nextCb then 1 else 0
  borrow : s.BorrowsLive
  ub : s.sh.ub = false
  rel : s.sh.count = 0 → s.sh.fut = false

theorem inside_pos {l : List Pc} (h : l.any Pc.inside = true) : 2 ≤ total Pc.arcs l := by
  rw [List.any_eq_true] at h
  obtain ⟨a, ha, h⟩ := h
  have := le_total Pc.arcs ha
  cases a <;> simp [Pc.inside] at h
  simpa [Pc.arcs] using this

/-- A running call that owns no reference borrows a waker. -/
theorem borrows_of_arcs {pc : Pc} (h : pc.arcs = 0) : pc.borrows = true := by
  cases pc with
  | wake o => cases o <;> simp_all [Pc.arcs, Pc.borrows]
  | invoke c p k => cases k <;> simp_all [Pc.arcs, Pc.borrows]
  | _ => simp [Pc.arcs] at h

/-- While a call runs, the object is there. -/
theorem Inv.count_pos {s : St R} (h : Inv s) {pc : Pc} (hpc : pc ∈ s.acts) : 0 < s.sh.count := by
  rw [h.count]
  by_cases h0 : pc.arcs = 0
  · have hb : s.acts.any Pc.borrows = true :=
      List.any_eq_true.2 ⟨pc, hpc, borrows_of_arcs h0⟩
    rcases h.borrow hb with hw | hi
    · omega
    · have := inside_pos hi; omega
  · have := le_total Pc.arcs hpc; omega

theorem Shared.touch_eq {sh : Shared R} (h : 0 < sh.count) : sh.touch = sh := by
  have : (sh.count == 0) = false := by simp; omega
  cases sh; simp_all [Shared.touch]

theorem inv_init : Inv (init : St R) where
  count := rfl
  lock := rfl
  token := fun cb => by simp [init, calls, Sched.token]
  borrow := by simp [St.BorrowsLive, init]
  ub := rfl
  rel := by simp [init]

theorem calls_add (cb : Nat) (sh : Shared R) (e : Ev R) :
    calls cb (sh.add e).log = calls cb sh.log + calls cb [e] := by simp [Shared.add]

theorem inv_start {s s' : St R} (hi : Inv s) {op : Op} (h : start s op = some s')
    (hb : s'.BorrowsLive) : Inv s' := by
  have hh : s.sh.handle = true → 0 < s.sh.count := by
    intro hh; rw [hi.count, hh]; simp; omega
  have hw : 0 < s.sh.wakers ∨ s.acts.any Pc.inside = true → 0 < s.sh.count := by
    rw [hi.count]
    rintro (h | h)
    · omega
    · have := inside_pos h; omega
  obtain ⟨hcount, hlock, htoken, hborrow, hub, hrel⟩ := hi
  obtain ⟨sh, acts⟩ := s
  cases op <;> simp only [start] at h <;> split at h <;> simp only [Option.some.injEq, reduceCtorEq] at h <;>
    subst h
  case poll.isTrue h1 =>
    simp only [Shared.touch_eq (hh h1)] at hb ⊢
    refine ⟨?_, ?_, ?_, hb, ?_, ?_⟩
    · simp [Shared.add, Pc.arcs] at hcount ⊢; omega
    · simpa [Shared.add, Pc.holds] using hlock
    · intro cb
      have := htoken cb
      simp only [Shared.add, Pc.token, calls, calls_append, total_append, total_cons, total_nil]
        at this ⊢
      show _ = (if cb < sh.nextCb + 1 then 1 else 0)
      rcases Nat.lt_trichotomy cb sh.nextCb with h2 | h2 | h2
      · rw [if_pos h2] at this
        rw [if_neg (show ¬ sh.nextCb = cb by omega)]; split <;> omega
      · rw [if_neg (show ¬ cb < sh.nextCb by omega)] at this
        rw [if_pos (show sh.nextCb = cb by omega)]; split <;> omega
      · rw [if_neg (show ¬ cb < sh.nextCb by omega)] at this
        rw [if_neg (show ¬ sh.nextCb = cb by omega)]; split <;> omega
    · simpa [Shared.add] using hub
    · simp [Shared.add]
  case cancel.isTrue h1 =>
    simp only [Shared.touch_eq (hh h1)] at hb ⊢
    refine ⟨?_, ?_, ?_, hb, ?_, ?_⟩
    · simp [Pc.arcs] at hcount ⊢; omega
    · simpa [Pc.holds] using hlock
    · intro cb; simpa [Pc.token] using htoken cb
    · simpa using hub
    · simp
  case complete.isTrue h1 =>
    simp only [Shared.touch_eq (hh h1)] at hb ⊢
    refine ⟨?_, ?_, ?_, hb, ?_, ?_⟩
    · simp [Pc.arcs] at hcount ⊢; omega
    · simpa [Pc.holds] using hlock
    · intro cb; simpa [Pc.token] using htoken cb
    · simpa using hub
    · simp
  case free.isTrue h1 =>
    simp only [Shared.touch_eq (hh h1)] at hb ⊢
    refine ⟨?_, ?_, ?_, hb, ?_, ?_⟩
    · simp [Pc.arcs, h1] at hcount ⊢; omega
    · simpa [Pc.holds] using hlock
    · intro cb; simpa [Pc.token] using htoken cb
    · simpa using hub
    · simpa using hrel
  case wakerClone.isTrue h1 =>
    simp only [Shared.touch_eq (hw h1)] at hb ⊢
    refine ⟨?_, ?_, ?_, hb, ?_, ?_⟩
    · simp at hcount ⊢; omega
    · simpa using hlock
    · intro cb; simpa using htoken cb
    · simpa using hub
    · simp
  case wakerDrop.isTrue h1 =>
    refine ⟨?_, ?_, ?_, hb, ?_, ?_⟩
    · simp [Pc.arcs] at hcount ⊢; omega
    · simpa [Pc.holds] using hlock
    · intro cb; simpa [Pc.token] using htoken cb
    · simpa using hub
    · simpa using hrel
  case wakerWake.isTrue h1 =>
    refine ⟨?_, ?_, ?_, hb, ?_, ?_⟩
    · simp [Pc.arcs] at hcount ⊢; omega
    · simpa [Pc.holds] using hlock
    · intro cb; simpa [Pc.token] using htoken cb
    · simpa using hub
    · simpa using hrel
  case wakerWakeByRef.isTrue h1 =>
    refine ⟨?_, ?_, ?_, hb, ?_, ?_⟩
    · simpa [Pc.arcs] using hcount
    · simpa [Pc.holds] using hlock
    · intro cb; simpa [Pc.token] using htoken cb
    · simpa using hub
    · simpa using hrel

/-- The weight of what is left of a call. -/
def left (f : Pc → Nat) : Option Pc → Nat
  | none => 0
  | some pc => f pc

theorem total_toList (f : Pc → Nat) (o : Option Pc) : total f o.toList = left f o := by
  cases o <;> simp [left]

/-- What one step does to references, lock and continuations. -/
theorem step_local {o : Option R} {sh sh' : Shared R} {pc : Pc} {pc' : Option Pc}
    (h : step o sh pc = some (pc', sh')) (hc : 0 < sh.count) (ha : pc.arcs ≤ sh.count)
    (hl : pc.holds = 1 → sh.locked = true) :
    sh'.count + pc.arcs = sh.count + left Pc.arcs pc' ∧
    sh'.handle = sh.handle ∧ sh'.wakers = sh.wakers ∧ sh'.nextCb = sh.nextCb ∧ sh'.ub = sh.ub ∧
    sh'.locked.toNat + pc.holds = sh.locked.toNat + left Pc.holds pc' ∧
    (∀ cb, calls cb sh'.log + sh'.sched.token cb + left (Pc.token cb) pc' =
      calls cb sh.log + sh.sched.token cb + pc.token cb) ∧
    (sh'.count = 0 → sh'.fut = false) := by
  cases pc with
  | pollStart cb =>
    simp only [step, Shared.touch_eq hc] at h
    split at h <;> simp only [Option.some.injEq, Prod.mk.injEq] at h <;> obtain ⟨rfl, rfl⟩ := h <;>
      simp [left, Pc.arcs, Pc.holds, Pc.token] <;> omega
  | pollLock cb =>
    simp only [step, Shared.touch_eq hc] at h
    split at h <;> simp only [Option.some.injEq, Prod.mk.injEq, reduceCtorEq] at h
    obtain ⟨rfl, rfl⟩ := h
    simp_all [left, Pc.arcs, Pc.holds, Pc.token]; omega
  | pollBody cb =>
    simp only [step, Shared.touch_eq hc] at h
    split at h
    · simp only [Option.some.injEq, Prod.mk.injEq] at h; obtain ⟨rfl, rfl⟩ := h
      simp [left, Pc.arcs, Pc.holds, Pc.token]
    · split at h <;> simp only [Option.some.injEq, Prod.mk.injEq] at h <;> obtain ⟨rfl, rfl⟩ := h <;>
        simp [left, Pc.arcs, Pc.holds, Pc.token, Shared.add, calls]
  | inFuture cb =>
    simp only [step, Shared.touch_eq hc] at h
    cases o <;> simp only [Option.some.injEq, Prod.mk.injEq] at h <;> obtain ⟨rfl, rfl⟩ := h <;>
      simp [left, Pc.arcs, Pc.holds, Pc.token, Shared.add, calls]
    omega
  | pollDropWaker cb ready =>
    simp only [step, Shared.touch_eq hc, Option.some.injEq, Prod.mk.injEq] at h
    obtain ⟨rfl, rfl⟩ := h
    simp only [Pc.arcs] at ha
    have : ¬ sh.count = 1 := by omega
    simp [left, Pc.arcs, Pc.holds, Pc.token, Shared.dropArc, this]
    omega
  | pollUnlock cb ready =>
    simp only [step, Shared.touch_eq hc] at h
    have hl := hl rfl
    split at h <;> simp only [Option.some.injEq, Prod.mk.injEq] at h <;> obtain ⟨rfl, rfl⟩ := h <;>
      simp [left, Pc.arcs, Pc.holds, Pc.token, hl] <;> omega
  | store cb =>
    simp only [step, Shared.touch_eq hc, Option.some.injEq, Prod.mk.injEq] at h
    obtain ⟨rfl, rfl⟩ := h
    cases hs : sh.sched <;>
      simp [left, Pc.arcs, Pc.holds, Pc.token, Sched.store, invokeThen, After.pc, Sched.token] <;>
      (try constructor) <;> intros <;> omega
  | invoke cb p k =>
    simp only [step, Option.some.injEq, Prod.mk.injEq] at h
    obtain ⟨rfl, rfl⟩ := h
    cases k <;> simp [left, Pc.arcs, Pc.holds, Pc.token, After.pc, Shared.add, calls] <;>
      (try constructor) <;> intros <;> omega
  | dropArc =>
    simp only [step, Shared.touch_eq hc, Option.some.injEq, Prod.mk.injEq] at h
    obtain ⟨rfl, rfl⟩ := h
    unfold Shared.dropArc
    split
    · split <;> simp_all [left, Pc.arcs, Pc.holds, Pc.token, Shared.add, calls]
    · simp [left, Pc.arcs, Pc.holds, Pc.token]; omega
  | cancel free =>
    simp only [step, Shared.touch_eq hc, Option.some.injEq, Prod.mk.injEq] at h
    obtain ⟨rfl, rfl⟩ := h
    cases hs : sh.sched <;> cases free <;>
      simp [left, Pc.arcs, Pc.holds, Pc.token, Sched.cancel, invokeThen, After.pc, Sched.token,
        Shared.add, calls] <;>
      (try constructor) <;> intros <;> omega
  | freeLock =>
    simp only [step, Shared.touch_eq hc] at h
    split at h <;> simp only [Option.some.injEq, Prod.mk.injEq, reduceCtorEq] at h
    obtain ⟨rfl, rfl⟩ := h
    simp_all [left, Pc.arcs, Pc.holds, Pc.token]; omega
  | freeBody =>
    simp only [step, Shared.touch_eq hc, Option.some.injEq, Prod.mk.injEq] at h
    obtain ⟨rfl, rfl⟩ := h
    unfold Shared.freeInner
    split <;> simp_all [left, Pc.arcs, Pc.holds, Pc.token, Shared.add, calls]
  | freeUnlock =>
    simp only [step, Shared.touch_eq hc, Option.some.injEq, Prod.mk.injEq] at h
    obtain ⟨rfl, rfl⟩ := h
    have hl := hl rfl
    simp [left, Pc.arcs, Pc.holds, Pc.token, hl]; omega
  | complLock =>
    simp only [step, Shared.touch_eq hc] at h
    split at h <;> simp only [Option.some.injEq, Prod.mk.injEq, reduceCtorEq] at h
    obtain ⟨rfl, rfl⟩ := h
    simp_all [left, Pc.arcs, Pc.holds, Pc.token]; omega
  | complBody =>
    simp only [step, Shared.touch_eq hc, Option.some.injEq, Prod.mk.injEq] at h
    obtain ⟨rfl, rfl⟩ := h
    unfold Shared.freeInner
    split <;> simp_all [left, Pc.arcs, Pc.holds, Pc.token, Shared.add, calls]
  | complUnlock =>
    simp only [step, Shared.touch_eq hc, Option.some.injEq, Prod.mk.injEq] at h
    obtain ⟨rfl, rfl⟩ := h
    have hl := hl rfl
    simp [left, Pc.arcs, Pc.holds, Pc.token, hl]; omega
  | wake owns =>
    simp only [step, Shared.touch_eq hc, Option.some.injEq, Prod.mk.injEq] at h
    obtain ⟨rfl, rfl⟩ := h
    cases hs : sh.sched <;> cases owns <;>
      simp [left, Pc.arcs, Pc.holds, Pc.token, Sched.wake, invokeThen, After.pc, Sched.token,
        Shared.add, calls] <;>
      (try constructor) <;> intros <;> omega

/-- What `step_local` needs, from the invariant. -/
theorem Inv.step_hyps {sh : Shared R} {l₁ l₂ : List Pc} {pc : Pc}
    (hi : Inv (⟨sh, l₁ ++ pc :: l₂⟩ : St R)) :
    0 < sh.count ∧ pc.arcs ≤ sh.count ∧ (pc.holds = 1 → sh.locked = true) := by
  have hm : pc ∈ l₁ ++ pc :: l₂ := by simp
  refine ⟨hi.count_pos hm, ?_, fun h => ?_⟩
  · have := le_total Pc.arcs hm
    have := hi.count
    dsimp only at this
    omega
  · have h1 := le_total Pc.holds hm
    have h2 := hi.lock
    dsimp only at h2
    cases hl : sh.locked
    · simp [hl] at h2; simp [h] at h1; omega
    · rfl

theorem inv_run {s s' : St R} (hi : Inv s) (h : Run s s') : Inv s' := by
  cases h with
  | mk l₁ l₂ pc o sh sh' pc' h hb =>
    obtain ⟨hc, ha, hl⟩ := hi.step_hyps
    obtain ⟨h1, h2, h3, h4, h5, h6, h7, h8⟩ := step_local h hc ha hl
    obtain ⟨hcount, hlock, htoken, hborrow, hub, hrel⟩ := hi
    simp only [total_append, total_cons] at hcount hlock htoken
    refine ⟨?_, ?_, ?_, hb, ?_, h8⟩
    · simp only [total_append, total_toList, h2, h3]; omega
    · simp only [total_append, total_toList]; omega
    · intro cb
      have a := htoken cb
      have b := h7 cb
      simp only [total_append, total_toList, h4]; omega
    · simpa [h5] using hub

theorem inv_step {s s' : St R} (hi : Inv s) (h : Step s s') : Inv s' := by
  cases h with
  | start op h hb => exact inv_start hi h hb
  | run h => exact inv_run hi h

theorem inv_steps {s s' : St R} (hi : Inv s) (h : Steps s s') : Inv s' := by
  induction h with
  | refl => exact hi
  | tail s s' _ h ih => exact inv_step ih h

/-- Every reachable state satisfies the invariant. -/
theorem Reachable.inv {s : St R} (h : Reachable s) : Inv s := inv_steps inv_init h

theorem Reachable.step {s s' : St R} (h : Reachable s) (h' : Step s s') : Reachable s' :=
  .tail _ _ _ h h'

theorem Steps.trans {a b c : St R} (h : Steps a b) (h' : Steps b c) : Steps a c := by
  induction h' with
  | refl => exact h
  | tail _ _ _ h ih => exact .tail _ _ _ ih h

theorem Reachable.steps {s s' : St R} (h : Reachable s) (h' : Steps s s') : Reachable s' :=
  Steps.trans h h'

end Verif.Async
