import Verif.Async.Driver
import Verif.Props.Async
/-
The await loop keeps the protocol.
-/
namespace Verif.Async
open Verif

variable {R : Type}

/-- Completes a call is about to do. -/
def Pc.compl : Pc → Nat
  | .complLock => 1
  | .complBody => 1
  | _ => 0

/-- Cancels a call is about to do. -/
def Pc.cancels : Pc → Nat
  | .cancel _ => 1
  | _ => 0

def completes : List (Ev R) → Nat
  | [] => 0
  | .completed _ :: l => 1 + completes l
  | _ :: l => completes l

def cancels : List (Ev R) → Nat
  | [] => 0
  | .cancelled :: l => 1 + cancels l
  | _ :: l => cancels l

@[simp] theorem completes_append (a b : List (Ev R)) :
    completes (a ++ b) = completes a + completes b := by
  induction a with
  | nil => simp [completes]
  | cons e a ih => cases e <;> simp [completes, ih, Nat.add_assoc]

@[simp] theorem cancels_append (a b : List (Ev R)) : cancels (a ++ b) = cancels a + cancels b := by
  induction a with
  | nil => simp [cancels]
  | cons e a ih => cases e <;> simp [cancels, ih, Nat.add_assoc]

theorem cancels_zero {l : List (Ev R)} (h : cancels l = 0) : Ev.cancelled ∉ l := by
  induction l with
  | nil => simp
  | cons e l ih => cases e <;> simp_all [cancels] <;> omega

theorem completes_zero {l : List (Ev R)} (h : completes l = 0) (o : Option R) :
    Ev.completed o ∉ l := by
  induction l with
  | nil => simp
  | cons e l ih => cases e <;> simp_all [cancels, completes] <;> omega

/-- How often this step calls continuation `cb`. -/
def Pc.calling (cb : Nat) : Pc → Nat
  | .invoke c _ _ => if c = cb then 1 else 0
  | _ => 0

theorem After.counts (k : After) : left Pc.compl k.pc = 0 ∧ left Pc.cancels k.pc = 0 := by
  cases k <;> simp [After.pc, left, Pc.compl, Pc.cancels]

theorem invokeThen_counts (x : Option (Nat × PollCode)) (k : After) :
    left Pc.compl (invokeThen x k) = 0 ∧ left Pc.cancels (invokeThen x k) = 0 := by
  cases x
  · exact k.counts
  · simp [invokeThen, left, Pc.compl, Pc.cancels]

theorem dropArc_counts (sh : Shared R) : completes sh.dropArc.log = completes sh.log ∧
    cancels sh.dropArc.log = cancels sh.log ∧ (∀ cb, calls cb sh.dropArc.log = calls cb sh.log) ∧
    sh.dropArc.handle = sh.handle := by
  unfold Shared.dropArc
  split
  · split <;> simp [Shared.add, completes, cancels, calls]
  · simp

theorem freeInner_counts (sh : Shared R) : completes sh.freeInner.log = completes sh.log ∧
    cancels sh.freeInner.log = cancels sh.log ∧ (∀ cb, calls cb sh.freeInner.log = calls cb sh.log) ∧
    sh.freeInner.handle = sh.handle := by
  unfold Shared.freeInner
  split <;> simp [Shared.add, completes, cancels, calls]

/-- What one step of the future does to completes, cancels and calls. -/
theorem step_counts {o : Option R} {sh sh' : Shared R} {pc : Pc} {pc' : Option Pc}
    (h : Async.step o sh pc = some (pc', sh')) :
    completes sh'.log = completes sh.log + (if pc = .complBody then 1 else 0) ∧
    left Pc.compl pc' + (if pc = .complBody then 1 else 0) = pc.compl ∧
    cancels sh'.log = cancels sh.log + pc.cancels ∧ left Pc.cancels pc' = 0 ∧
    (∀ cb, calls cb sh'.log = calls cb sh.log + pc.calling cb) ∧ sh'.nextCb = sh.nextCb ∧
    sh'.handle = sh.handle := by
  have hk := fun k : After => k.counts
  have hi := invokeThen_counts
  have hd := dropArc_counts (R := R)
  have hf := freeInner_counts (R := R)
  cases pc <;> simp only [Async.step] at h
  all_goals
    (repeat' split at h) <;> simp only [Option.some.injEq, Prod.mk.injEq, reduceCtorEq] at h <;>
    obtain ⟨rfl, rfl⟩ := h <;>
    simp [Shared.touch, Shared.add, completes, cancels, calls, hk, hi, hd, hf, Pc.compl, Pc.cancels,
      Pc.calling, dropArc_nextCb, freeInner_nextCb] <;>
    simp [left, Pc.compl, Pc.cancels]

def DPc.isFinished : DPc R → Bool
  | .finished _ => true
  | _ => false

/-- What is known about continuations, from where the loop is. -/
def DPc.Called (nextCb : Nat) (log : List (Ev R)) : DPc R → Prop
  | .suspended cb => cb + 1 = nextCb ∧ calls cb log = 0
  | .cleanup _ => True
  | .finished _ => True
  | _ => ∀ c, c < nextCb → calls c log = 1

/-- What is known about complete. -/
def DPc.Compl (s : St R) : DPc R → Prop
  | .completing => completes s.sh.log = 0 ∧ total Pc.compl s.acts = 1
  | .cleanup (some o) => completes s.sh.log = 1 ∧ total Pc.compl s.acts = 0 ∧
      ∃ r, o = some r ∧ Ev.innerReady r ∈ s.sh.log ∧ Ev.completed (some r) ∈ s.sh.log
  | .finished (some o) => completes s.sh.log = 1 ∧ total Pc.compl s.acts = 0 ∧
      ∃ r, o = some r ∧ Ev.innerReady r ∈ s.sh.log ∧ Ev.completed (some r) ∈ s.sh.log
  | _ => completes s.sh.log = 0 ∧ total Pc.compl s.acts = 0

/-- Ready was seen. -/
def DPc.seen : DPc R → Bool
  | .resumed .ready => true
  | .complete => true
  | .completing => true
  | .cleanup (some _) => true
  | .finished (some _) => true
  | _ => false

/-- The calls made after the polls. -/
def DPc.after : DPc R → List Op
  | .completing => [.complete]
  | .cleanup (some _) => [.complete]
  | .finished none => [.free]
  | .finished (some _) => [.complete, .free]
  | _ => []

structure J (d : D R) : Prop where
  disc : Disciplined d.st
  handle : d.st.sh.handle = !d.pc.isFinished
  map : ∀ cb, cb ∈ d.map ↔ cb < d.st.sh.nextCb ∧ calls cb d.st.sh.log = 0
  nodup : d.map.Nodup
  bad : d.bad = false
  called : d.pc.Called d.st.sh.nextCb d.st.sh.log
  noCancel : d.pc.isFinished = false → cancels d.st.sh.log = 0 ∧ total Pc.cancels d.st.acts = 0
  compl : d.pc.Compl d.st
  seen : d.pc.seen = true → ∃ cb, Ev.invoked cb .ready ∈ d.st.sh.log
  ops : d.ops = List.replicate d.st.sh.nextCb .poll ++ d.pc.after

theorem J.init : J ({} : D R) := by
  constructor <;> simp [DPc.isFinished, DPc.Called, DPc.Compl, DPc.seen, DPc.after, Async.init,
    completes, cancels, total]
  exact .init

theorem borrows_call {s s' : St R} {op : Op} (ho : op.ofWaker = false) (h : Async.start s op = some s')
    (hb : s.BorrowsLive) : s'.BorrowsLive := by
  cases op <;> simp [Op.ofWaker] at ho <;> simp only [Async.start] at h <;> split at h <;>
    simp only [Option.some.injEq, reduceCtorEq] at h <;> subst h <;>
    simp only [St.BorrowsLive, List.any_append, List.any_cons, List.any_nil, Bool.or_eq_true,
      Bool.or_false] at hb ⊢ <;>
    simpa [Pc.borrows, Pc.inside, Shared.touch, Shared.add] using hb

theorem J.step {d d' : D R} (j : J d) (h : DStep d d') : J d' := by
  have hi := j.disc.reachable.inv
  have hold := j.disc.oneAtATime.old
  have hone : ∀ cb, calls cb d.st.sh.log ≤ 1 := fun cb => by
    have := hi.token cb
    split at this <;> omega
  have hlt : ∀ cb, 0 < calls cb d.st.sh.log → cb < d.st.sh.nextCb := fun cb hc => by
    have := hi.token cb
    split at this
    · assumption
    · omega
  have hst := j.disc.reachable.facts.1.started
  obtain ⟨disc, handle, hmap, nodup, bad, called, noCancel, compl, seen, ops⟩ := j
  cases h with
  | poll st' hp h =>
    simp only [hp, DPc.Called, DPc.Compl, DPc.after, DPc.isFinished] at *
    have hb := borrows_call rfl h hi.borrow
    have hd := Disciplined.start _ _ _ disc h hb (fun _ cb hcb => called cb ((hst cb).1 hcb))
    simp only [Async.start, handle, Bool.not_false, if_true, Option.some.injEq] at h
    have hn : calls d.st.sh.nextCb d.st.sh.log = 0 := by
      have := hi.token d.st.sh.nextCb
      simp at this; omega
    subst h
    constructor
    · exact hd
    all_goals simp_all [Shared.touch, Shared.add, DPc.Called, DPc.Compl, DPc.after, DPc.isFinished,
      DPc.seen, calls, completes, cancels, Pc.compl, Pc.cancels, List.replicate_succ']
    intro cb
    constructor
    · rintro (rfl | h)
      · exact ⟨by omega, hn⟩
      · exact ⟨by omega, h.2⟩
    · rintro ⟨h1, h2⟩
      by_cases h3 : cb < d.st.sh.nextCb
      · exact .inr ⟨h3, h2⟩
      · exact .inl (by omega)
  | resume p hp =>
    simp only [hp, DPc.Called, DPc.Compl, DPc.after, DPc.isFinished] at *
    constructor <;> cases p <;>
      simp_all [DPc.afterPoll, DPc.Called, DPc.Compl, DPc.after, DPc.isFinished, DPc.seen]
  | cancel hp =>
    rcases hp with hp | ⟨cb, hp⟩ | ⟨p, hp⟩ <;>
    simp only [hp, DPc.Called, DPc.Compl, DPc.after, DPc.isFinished] at * <;>
    constructor <;>
      simp_all [DPc.Called, DPc.Compl, DPc.after, DPc.isFinished, DPc.seen]
  | complete st' hp h =>
    simp only [hp, DPc.Called, DPc.Compl, DPc.after, DPc.isFinished] at *
    have hb := borrows_call rfl h hi.borrow
    have hd := Disciplined.start _ _ _ disc h hb (fun h => by cases h)
    simp only [Async.start, handle, Bool.not_false, if_true, Option.some.injEq] at h
    subst h
    constructor
    · exact hd
    all_goals simp_all [Shared.touch, Shared.add, DPc.Called, DPc.Compl, DPc.after, DPc.isFinished,
      DPc.seen, calls, completes, cancels, Pc.compl, Pc.cancels]
  | free out st' hp h =>
    simp only [hp, DPc.Called, DPc.after, DPc.isFinished] at *
    have hb := borrows_call rfl h hi.borrow
    have hd := Disciplined.start _ _ _ disc h hb (fun h => by cases h)
    simp only [Async.start, handle, Bool.not_false, if_true, Option.some.injEq] at h
    subst h
    constructor
    · exact hd
    all_goals cases out <;> simp_all [Shared.touch, Shared.add, DPc.Called, DPc.Compl, DPc.after,
      DPc.isFinished, DPc.seen, calls, completes, cancels, Pc.compl, Pc.cancels]
  | waker op st' ho h hb =>
    have hd := Disciplined.start _ _ _ disc h hb (fun h => by subst h; cases ho)
    have hs : st'.sh.handle = d.st.sh.handle ∧ st'.sh.nextCb = d.st.sh.nextCb ∧
        st'.sh.log = d.st.sh.log ∧ total Pc.compl st'.acts = total Pc.compl d.st.acts ∧
        total Pc.cancels st'.acts = total Pc.cancels d.st.acts := by
      cases op <;> simp [Op.ofWaker] at ho <;> simp only [Async.start] at h <;> split at h <;>
        simp only [Option.some.injEq, reduceCtorEq] at h <;> subst h <;>
        simp [Shared.touch, Pc.compl, Pc.cancels]
    obtain ⟨h1, h2, h3, h4, h5⟩ := hs
    have hc : d.pc.Compl st' := by
      revert compl
      cases d.pc <;> simp only [DPc.Compl, h3, h4]
      all_goals (try rename_i o; cases o <;> simp only [h3, h4]) <;> exact id
    refine ⟨hd, ?_, ?_, nodup, bad, ?_, ?_, hc, ?_, ?_⟩ <;> simp only [h1, h2, h3, h5] <;> assumption
  | run l₁ l₂ pc o sh' pc' hacts h hb =>
    obtain ⟨c1, c2, c3, c4, c5, c6, c7⟩ := step_counts h
    obtain ⟨evs, hevs⟩ := step_log h
    have hmem : ∀ e ∈ d.st.sh.log, e ∈ sh'.log := fun e he => by rw [hevs]; simp [he]
    have hd : Disciplined (⟨sh', l₁ ++ pc'.toList ++ l₂⟩ : St R) := by
      refine .run _ _ disc ?_
      have := Run.mk l₁ l₂ pc o d.st.sh sh' pc' h hb
      rwa [show (⟨d.st.sh, l₁ ++ pc :: l₂⟩ : St R) = d.st by rw [← hacts]] at this
    have tc : total Pc.compl (l₁ ++ pc'.toList ++ l₂) + (if pc = .complBody then 1 else 0) =
        total Pc.compl d.st.acts := by
      rw [hacts]; simp only [total_append, total_cons, total_toList]; omega
    have tk : total Pc.cancels (l₁ ++ pc'.toList ++ l₂) + pc.cancels =
        total Pc.cancels d.st.acts := by
      rw [hacts]; simp only [total_append, total_cons, total_toList]; omega
    by_cases hinv : ∃ cb p k, pc = .invoke cb p k
    · obtain ⟨cb, p, k, rfl⟩ := hinv
      simp only [D.notice, reduceCtorEq, if_false, Nat.add_zero, Pc.cancels, Pc.calling] at *
      have hz : calls cb d.st.sh.log = 0 ∧ cb < d.st.sh.nextCb := by
        have h1 := hi.token cb
        have h2 : 1 ≤ total (Pc.token cb) d.st.acts := by
          rw [hacts]; simp [Pc.token]; omega
        split at h1
        · exact ⟨by omega, by assumption⟩
        · omega
      have hlast : cb + 1 = d.st.sh.nextCb := by
        apply Decidable.byContradiction
        intro hn
        have := hold cb (by omega)
        omega
      have hin : Ev.invoked cb p ∈ sh'.log := by
        simp only [Async.step, Option.some.injEq, Prod.mk.injEq] at h
        rw [← h.2]; simp [Shared.add]
      have hall : ∀ c, c < sh'.nextCb → calls c sh'.log = 1 := fun c hc => by
        rw [c5 c]
        by_cases h' : cb = c
        · subst h'; simp [hz.1]
        · have := hold c (by omega); simp [h', this]
      have hcase : (d.pc = .suspended cb ∧ d.pc.resume cb p = .resumed p) ∨
          ((∃ o, d.pc = .cleanup o ∨ d.pc = .finished o) ∧ d.pc.resume cb p = d.pc) := by
        cases hpc : d.pc <;> simp only [hpc, DPc.Called] at called <;>
          first
            | (have := called cb hz.2; omega)
            | skip
        · rename_i c
          have : c = cb := by omega
          subst this
          exact .inl ⟨rfl, by simp [DPc.resume]⟩
        · exact .inr ⟨⟨_, .inl rfl⟩, rfl⟩
        · exact .inr ⟨⟨_, .inr rfl⟩, rfl⟩
      refine ⟨hd, ?_, ?_, ?_, ?_, ?_, ?_, ?_, ?_, ?_⟩
      · rw [c7, handle]
        rcases hcase with ⟨h1, h2⟩ | ⟨⟨o, h1 | h1⟩, h2⟩ <;> rw [h2] <;> simp [h1, DPc.isFinished]
      · intro c
        rw [c6, c5]
        simp only [List.mem_filter, hmap, bne_iff_ne, ne_eq]
        by_cases h' : cb = c
        · simp [h']
        · simp [h', Ne.symm h']
      · exact nodup.filter _
      · simp [bad, (hmap cb).2 ⟨hz.2, hz.1⟩]
      · rcases hcase with ⟨h1, h2⟩ | ⟨⟨o, h1 | h1⟩, h2⟩ <;> rw [h2] <;> simp only [h1, DPc.Called]
        exact hall
      · rcases hcase with ⟨h1, h2⟩ | ⟨⟨o, h1 | h1⟩, h2⟩ <;> rw [h2] <;>
          simp only [h1, DPc.isFinished] at noCancel ⊢ <;> intro hf <;> have := noCancel hf <;> omega
      · rcases hcase with ⟨h1, h2⟩ | ⟨⟨o, h1 | h1⟩, h2⟩ <;> rw [h2] <;> (try cases o) <;>
          simp only [h1, DPc.Compl] at compl ⊢ <;> grind
      · rcases hcase with ⟨h1, h2⟩ | ⟨⟨o, h1 | h1⟩, h2⟩ <;> rw [h2]
        · cases p
          · exact fun _ => ⟨cb, hin⟩
          · intro hs; cases hs
        · intro hs; obtain ⟨c, hc⟩ := seen hs; exact ⟨c, hmem _ hc⟩
        · intro hs; obtain ⟨c, hc⟩ := seen hs; exact ⟨c, hmem _ hc⟩
      · rw [ops, c6]
        rcases hcase with ⟨h1, h2⟩ | ⟨⟨o, h1 | h1⟩, h2⟩ <;> rw [h2] <;> simp [h1, DPc.after]
    · have hcall : ∀ cb, calls cb sh'.log = calls cb d.st.sh.log := fun cb => by
        rw [c5 cb]
        cases pc <;> first | rfl | skip
        exact absurd ⟨_, _, _, rfl⟩ hinv
      by_cases hcb : pc = .complBody
      · subst hcb
        simp only [if_true, Pc.cancels, Nat.add_zero] at *
        have hpc : d.pc = .completing := by
          cases hpc : d.pc <;> simp only [hpc, DPc.Compl] at compl <;> first | omega | rfl | skip
          all_goals (rename_i o; cases o <;> simp only at compl <;> omega)
        simp only [D.notice, hpc]
        simp only [hpc, DPc.Compl] at compl
        simp only [hpc, DPc.isFinished] at noCancel
        obtain ⟨nc1, nc2⟩ := noCancel trivial
        obtain ⟨cb, hready⟩ := seen (by rw [hpc]; rfl)
        have hlog : ∃ pre, sh'.log = pre ++ [.completed d.st.sh.result] ∧
            (∀ e ∈ d.st.sh.log, e ∈ pre) ∧ cancels pre = cancels d.st.sh.log ∧
            completes pre = completes d.st.sh.log := by
          simp only [Async.step, Option.some.injEq, Prod.mk.injEq] at h
          rw [← h.2]
          unfold Shared.freeInner
          split
          · exact ⟨d.st.sh.log ++ [.innerDropped], by simp [Shared.add, Shared.touch],
              by simp +contextual, by simp [cancels], by simp [completes]⟩
          · exact ⟨d.st.sh.log, by simp [Shared.add, Shared.touch], by simp, rfl, rfl⟩
        obtain ⟨pre, hpre, hsub, hk1, hk2⟩ := hlog
        obtain ⟨r, hr1, hr2⟩ := Props.Async.C28_ready_complete hd.reachable cb d.st.sh.result pre []
          hpre (hsub _ hready) (cancels_zero (by omega)) (completes_zero (by omega))
        refine ⟨hd, ?_, ?_, nodup, bad, trivial, ?_, ?_, ?_, ?_⟩
        · simp [c7, handle, hpc, DPc.isFinished]
        · intro c; simp only [c6, hcall]; exact hmap c
        · intro _; exact ⟨by simp only []; omega, by simp only []; omega⟩
        · refine ⟨by simp only []; omega, by simp only []; omega, r, hr2, ?_, ?_⟩
          · simp only [hpre]; simp [hr1]
          · simp only [hpre]; simp [hr2]
        · exact fun _ => ⟨cb, hmem _ hready⟩
        · simp only [c6, ops, hpc, DPc.after]
      · have hn : d.notice d.st.sh pc = d := by
          cases pc <;> first | rfl | skip
          · exact absurd ⟨_, _, _, rfl⟩ hinv
          · exact absurd rfl hcb
        rw [hn]
        rw [if_neg hcb, Nat.add_zero] at c1 c2 tc
        refine ⟨hd, ?_, ?_, nodup, bad, ?_, ?_, ?_, ?_, ?_⟩
        · simp only [c7]; exact handle
        · intro c; simp only [c6, hcall]; exact hmap c
        · revert called
          cases d.pc <;> simp only [DPc.Called, c6, hcall] <;> exact id
        · intro hf
          have := noCancel hf
          exact ⟨by simp only []; omega, by simp only []; omega⟩
        · revert compl
          cases d.pc with
          | cleanup o => cases o <;> simp only [DPc.Compl, c1, tc] <;> grind
          | finished o => cases o <;> simp only [DPc.Compl, c1, tc] <;> grind
          | _ => simp only [DPc.Compl, c1, tc] <;> exact id
        · intro hs; obtain ⟨c, hc⟩ := seen hs; exact ⟨c, hmem _ hc⟩
        · simp only [c6]; exact ops

theorem DReach.j {d : D R} (h : DReach d) : J d := by
  induction h with
  | init => exact J.init
  | step _ _ _ hs ih => exact ih.step hs
end Verif.Async
