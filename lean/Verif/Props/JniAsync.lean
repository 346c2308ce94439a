import Verif.Jni.AsyncLog
/-
C76: async Rust functions called from Kotlin through JNI.
-/
namespace Verif.Props.JniAsync
open Verif.JniAsync

/-! ### Specification -/

/-- How the call should end. -/
def expected : Res → Out
  | .ok v => .returned v
  | .err e => .threw e
  | .panic => .internal

/-- No generated code is at work: nobody is waking, and the call waits for the code of the user, is
suspended, or is over. -/
def Quiet (s : S) : Prop :=
  s.waiting = 0 ∧ s.ending = 0 ∧ s.holder = .free ∧ (s.pc = .polling ∨ s.pc = .suspended ∨ ∃ o, s.pc = .finished o)

/-- One step of generated code. -/
def Own (inline : Bool) (s s' : S) : Prop := ∃ c : Cmd, c.own = true ∧ step inline s c = some s'

/-- `n` steps of generated code. -/
inductive Owns (inline : Bool) : Nat → S → S → Prop
  | nil (s : S) : Owns inline 0 s s
  | cons {n : Nat} {s s' s'' : S} : Own inline s s' → Owns inline n s' s'' → Owns inline (n + 1) s s''

/-- Any steps. -/
inductive Later (inline : Bool) : S → S → Prop
  | nil (s : S) : Later inline s s
  | cons {s s' s'' : S} (c : Cmd) : step inline s c = some s' → Later inline s' s'' → Later inline s s''

def doAll (inline : Bool) : S → List Cmd → Option S
  | s, [] => some s
  | s, c :: cs => (step inline s c).bind fun s' => doAll inline s' cs

theorem reach_doAll {inline : Bool} : ∀ (cs : List Cmd) (s s' : S), Reach inline s → doAll inline s cs = some s' →
    Reach inline s'
  | [], s, s', h, e => by cases e; exact h
  | c :: cs, s, s', h, e => by
    simp only [doAll] at e
    cases e1 : step inline s c with
    | none => rw [e1] at e; cases e
    | some s1 =>
      rw [e1] at e
      exact reach_doAll cs s1 s' (.step s s1 c h e1) e

theorem reach_owns {inline : Bool} {n : Nat} {s s' : S} (h : Reach inline s) (hs : Owns inline n s s') : Reach inline s' := by
  induction hs with
  | nil => exact h
  | cons h1 _ ih => obtain ⟨c, _, hc⟩ := h1; exact ih (.step _ _ c h hc)

/-! ### Generated code comes to rest -/

/-- What is left to do before the next poll. -/
def rank : Pc → Nat
  | .start => 5
  | .check => 4
  | .lockFuture => 3
  | .polling => 0
  | .deliver _ => 10
  | .store => 13
  | .stored => 12
  | .storeInvoke => 11
  | .storeDel => 10
  | .storeUnlock => 9
  | .ret _ => 8
  | .back _ => 7
  | .suspended => 0
  | .resumed _ => 6
  | .cleanup _ => 1
  | .finished _ => 0

def rankH : Holder → Nat
  | .free | .driver => 0
  | .locked => 14
  | .invoke _ => 12
  | .inside => 4
  | .del => 3
  | .unlock => 2

def measure (s : S) : Nat := rank s.pc + rankH s.holder + 20 * s.waiting + s.ending

theorem incr_frame (s : S) : s.incr.pc = s.pc ∧ s.incr.holder = s.holder ∧ s.incr.waiting = s.waiting ∧
    s.incr.ending = s.ending := by
  unfold S.incr; split <;> exact ⟨rfl, rfl, rfl, rfl⟩

theorem decr_frame (s : S) : s.decr.pc = s.pc ∧ s.decr.holder = s.holder ∧ s.decr.waiting = s.waiting ∧
    s.decr.ending = s.ending ∧ s.decr.inl = s.inl ∧ s.decr.owed = s.owed := by
  unfold S.decr S.add
  split
  · exact ⟨rfl, rfl, rfl, rfl, rfl, rfl⟩
  · split <;> exact ⟨rfl, rfl, rfl, rfl, rfl, rfl⟩

theorem delRef_frame (s : S) : s.delRef.pc = s.pc ∧ s.delRef.holder = s.holder ∧ s.delRef.waiting = s.waiting ∧
    s.delRef.ending = s.ending := by
  unfold S.delRef; split <;> exact ⟨rfl, rfl, rfl, rfl⟩

theorem resume_frame (s : S) (n : Nat) : (s.resume n).holder = s.holder ∧ (s.resume n).waiting = s.waiting ∧
    (s.resume n).ending = s.ending ∧ ((s.resume n).pc = s.pc ∨ (s.resume n).pc = .resumed false) ∧
    (s.resume n).owed = s.owed := by
  unfold S.resume S.add
  dsimp only
  split
  · split
    · exact ⟨rfl, rfl, rfl, .inl rfl, rfl⟩
    · exact ⟨rfl, rfl, rfl, .inr rfl, rfl⟩
    · exact ⟨rfl, rfl, rfl, .inl rfl, rfl⟩
  · exact ⟨rfl, rfl, rfl, .inl rfl, rfl⟩

/-- Every step of generated code brings the next poll, or the end, nearer. -/
theorem measure_lt {inline : Bool} {s s' : S} (j : Inv s) (h : Own inline s s') : measure s' < measure s := by
  obtain ⟨c, hc, h⟩ := h
  cases c with
  | clone => cases hc
  | drop => cases hc
  | wake => cases hc
  | answer r => cases hc
  | lock =>
    simp only [step] at h
    split at h
    · rename_i hh
      cases h
      simp only [measure, hh.1, rankH]; omega
    · cases h
  | endWake =>
    simp only [step] at h
    split at h
    · cases h
      obtain ⟨e1, e2, e3, e4, _⟩ := decr_frame s
      simp only [measure, e1, e2, e3]; omega
    · cases h
  | wakeStep =>
    simp only [step] at h
    cases hh : s.holder <;> simp only [S.wakeStep, hh] at h
    case free => cases h
    case driver => cases h
    case locked => split at h <;> cases h <;> simp only [measure, hh, rankH] <;> omega
    case invoke n =>
      obtain ⟨e1, e2, e3, e4, _⟩ := resume_frame s n
      split at h <;> cases h <;> simp only [measure, hh, rankH, e2, e3] <;> rcases e4 with e4 | e4 <;> rw [e4] <;>
        (try simp only [rank]) <;> omega
    case inside =>
      split at h
      · cases h
      · cases h; simp only [measure, hh, rankH]; omega
    case del =>
      cases h
      obtain ⟨e1, e2, e3, e4⟩ := delRef_frame s
      simp only [measure, hh, rankH, e1, e3, e4]; omega
    case unlock => cases h; simp only [measure, hh, rankH]; omega
  | driver =>
    simp only [step] at h
    have ht := j.token
    unfold S.Token at ht
    have hl := j.locks
    obtain ⟨i1, i2, i3, i4⟩ := incr_frame s
    cases hp : s.pc <;> simp only [S.driver, hp] at h <;> simp only [hp] at ht hl
    case start => cases h; simp only [measure, i2, i3, i4, rank, hp]; omega
    case check =>
      split at h
      · cases h; simp only [measure, rank, hp]; omega
      · cases h
    case lockFuture =>
      split at h
      · cases h
      · cases h
        simp only [measure, S.add, i2, i3, i4, rank, hp]; omega
    case polling => cases h
    case deliver r => cases r <;> dsimp only at h <;> cases h <;> simp only [measure, rank, hp] <;> omega
    case store =>
      split at h
      · rename_i hh; cases h; simp only [measure, rank, hp, rankH, hh]; omega
      · cases h
    case stored =>
      split at h
      · cases h; simp only [measure, rank, hp]; omega
      · rename_i n _
        cases h
        obtain ⟨e1, e2, e3, _⟩ := resume_frame s n
        simp only [measure, rank, hp, e1, e2, e3]; omega
      · cases h; simp only [measure, rank, hp]; omega
    case storeInvoke =>
      cases h
      obtain ⟨e1, e2, e3, _⟩ := resume_frame s s.cur
      simp only [measure, rank, hp, e1, e2, e3]; omega
    case storeDel =>
      cases h
      obtain ⟨e1, e2, e3, e4⟩ := delRef_frame s
      simp only [measure, rank, hp, e2, e3, e4]; omega
    case storeUnlock =>
      cases h
      have hd : s.holder = .driver := hl.2 rfl
      simp only [measure, rank, hp, rankH, hd]; omega
    case ret c =>
      cases h
      obtain ⟨e1, e2, e3, e4, _⟩ := decr_frame (S.decr { s with futLock := false, pc := .ret c })
      obtain ⟨f1, f2, f3, f4, _⟩ := decr_frame { s with futLock := false, pc := .ret c }
      simp only [measure, rank, hp, e2, e3, e4, f2, f3, f4]; omega
    case back c =>
      cases c with
      | pending =>
        dsimp only at h ht
        split at h
        · cases h; simp only [measure, rank, hp]; omega
        · cases h; simp only [measure, rank, hp]; omega
        · rename_i e; simp [e] at ht
      | complete => dsimp only at h; split at h <;> cases h <;> simp only [measure, rank, hp] <;> omega
      | threw o => dsimp only at h; cases h; simp only [measure, rank, hp]; omega
    case suspended => cases h
    case resumed b => cases b <;> dsimp only at h <;> cases h <;> simp only [measure, rank, hp] <;> omega
    case cleanup o =>
      cases h
      obtain ⟨e1, e2, e3, e4, _⟩ := decr_frame (s.add .freed)
      have f2 : (s.add .freed).holder = s.holder := rfl
      have f3 : (s.add .freed).waiting = s.waiting := rfl
      have f4 : (s.add .freed).ending = s.ending := rfl
      simp only [measure, rank, hp, e2, e3, e4, f2, f3, f4]; omega
    case finished o => cases h

/-- With a dispatcher the coroutine never runs inside the call of a continuation. -/
theorem not_inside {s : S} (h : Reach false s) : s.holder ≠ .inside := by
  induction h with
  | init => simp
  | step s s' c _ e ih =>
    cases c with
    | clone =>
      simp only [step] at e
      split at e
      · cases e; dsimp only; rw [(incr_frame s).2.1]; exact ih
      · cases e
    | drop =>
      simp only [step] at e
      split at e
      · cases e; dsimp only; rw [(decr_frame s).2.1]; exact ih
      · cases e
    | wake =>
      simp only [step] at e
      split at e
      · cases e; exact ih
      · cases e
    | answer r =>
      cases r <;> simp only [step] at e <;> split at e <;> cases e <;> exact ih
    | lock =>
      simp only [step] at e
      split at e
      · cases e; simp
      · cases e
    | endWake =>
      simp only [step] at e
      split at e
      · cases e; dsimp only; rw [(decr_frame s).2.1]; exact ih
      · cases e
    | wakeStep =>
      simp only [step] at e
      cases hh : s.holder <;> simp only [S.wakeStep, hh] at e
      case free => cases e
      case driver => cases e
      case locked => split at e <;> cases e <;> simp
      case invoke n => rw [if_neg (by simp)] at e; cases e; simp
      case inside => exact absurd hh ih
      case del => cases e; simp
      case unlock => cases e; simp
    | driver =>
      simp only [step] at e
      cases hp : s.pc <;> simp only [S.driver, hp] at e
      case start => cases e; dsimp only; rw [(incr_frame s).2.1]; exact ih
      case check => split at e <;> cases e; exact ih
      case lockFuture => split at e <;> cases e; simp only [S.add]; rw [(incr_frame s).2.1]; exact ih
      case polling => cases e
      case deliver r => cases r <;> dsimp only at e <;> cases e <;> exact ih
      case store => split at e <;> cases e; simp
      case stored =>
        split at e
        · cases e; exact ih
        · cases e; dsimp only; rw [(resume_frame s _).1]; exact ih
        · cases e; exact ih
      case storeInvoke => cases e; dsimp only; rw [(resume_frame s _).1]; exact ih
      case storeDel => cases e; dsimp only; rw [(delRef_frame s).2.1]; exact ih
      case storeUnlock => cases e; simp
      case ret c => cases e; dsimp only; rw [(decr_frame _).2.1, (decr_frame _).2.1]; exact ih
      case back c => cases c <;> dsimp only at e <;> (try split at e) <;> cases e <;> exact ih
      case suspended => cases e
      case resumed b => cases b <;> dsimp only at e <;> cases e <;> exact ih
      case cleanup o => cases e; dsimp only; rw [(decr_frame _).2.1]; exact ih
      case finished o => cases e

theorem progress {s : S} (h : Reach false s) (hq : ¬ Quiet s) : ∃ s', Own false s s' := by
  have j := h.inv
  have hni := not_inside h
  by_cases he : 0 < s.ending
  · exact ⟨_, .endWake, rfl, by simp only [step, he, if_true]; rfl⟩
  have own : ∀ {s'}, s.driver = some s' → ∃ s', Own false s s' := fun {s'} e => ⟨s', .driver, rfl, e⟩
  have ownW : ∀ {s'}, s.wakeStep false = some s' → ∃ s', Own false s s' := fun {s'} e => ⟨s', .wakeStep, rfl, e⟩
  have hl := j.locks
  cases hh : s.holder with
  | inside => exact absurd hh hni
  | locked =>
    cases hs : s.sched <;> exact ownW (by simp only [S.wakeStep, hh, hs]; rfl)
  | invoke n => exact ownW (by simp only [S.wakeStep, hh]; rw [if_neg (by simp)])
  | del => exact ownW (by simp only [S.wakeStep, hh]; rfl)
  | unlock => exact ownW (by simp only [S.wakeStep, hh]; rfl)
  | driver =>
    have := hl.1 hh
    cases hp : s.pc <;> rw [hp] at this <;> simp only [Pc.locks] at this
    case stored => cases hs : s.sched <;> exact own (by simp only [S.driver, hp, hs]; rfl)
    case storeInvoke => exact own (by simp only [S.driver, hp]; rfl)
    case storeDel => exact own (by simp only [S.driver, hp]; rfl)
    case storeUnlock => exact own (by simp only [S.driver, hp]; rfl)
    all_goals cases this
  | free =>
    by_cases hw : 0 < s.waiting
    · exact ⟨_, .lock, rfl, by simp only [step, hh, hw, and_self, if_true]; rfl⟩
    have hlf : s.pc.locks = false := by
      cases e : s.pc.locks with
      | false => rfl
      | true => have := hl.2 e; rw [hh] at this; cases this
    cases hp : s.pc
    case start => exact own (by simp only [S.driver, hp]; rfl)
    case check => exact own (by simp only [S.driver, hp, hh, if_true]; rfl)
    case lockFuture =>
      have hf := j.futLock
      rw [hp] at hf
      simp only [Pc.refs] at hf
      have hf : s.futLock = false := hf
      exact own (by simp only [S.driver, hp, hf, Bool.false_eq_true, if_false]; rfl)
    case deliver r => cases r <;> exact own (by simp only [S.driver, hp]; rfl)
    case store => exact own (by simp only [S.driver, hp, hh, if_true]; rfl)
    case stored => rw [hp] at hlf; cases hlf
    case storeInvoke => rw [hp] at hlf; cases hlf
    case storeDel => rw [hp] at hlf; cases hlf
    case storeUnlock => rw [hp] at hlf; cases hlf
    case ret c => exact own (by simp only [S.driver, hp]; rfl)
    case back c =>
      cases c
      case pending => cases hc : s.cont <;> exact own (by simp only [S.driver, hp, hc]; rfl)
      case complete => cases hc : s.cont <;> exact own (by simp only [S.driver, hp, hc]; rfl)
      case threw o => exact own (by simp only [S.driver, hp]; rfl)
    case resumed b => cases b <;> exact own (by simp only [S.driver, hp]; rfl)
    case cleanup o => exact own (by simp only [S.driver, hp]; rfl)
    case polling => exact absurd ⟨by omega, by omega, hh, .inl hp⟩ hq
    case suspended => exact absurd ⟨by omega, by omega, hh, .inr (.inl hp)⟩ hq
    case finished o => exact absurd ⟨by omega, by omega, hh, .inr (.inr ⟨o, hp⟩)⟩ hq

/-! ### Theorems -/

/-- No memory is used after it was freed, no continuation is resumed twice, and no global reference is
deleted twice, whatever wakers do and however the coroutine is resumed. -/
theorem C76_safe (inline : Bool) (s : S) (h : Reach inline s) : s.bad = false := h.inv.bad

/-- Each continuation is called at most once. -/
theorem C76_resumed_once (inline : Bool) (s : S) (h : Reach inline s) (n : Nat) : s.log.count (.resume n) ≤ 1 :=
  h.log.resumes n

/-- Generated code does not loop: no run of it is longer than `measure` says. -/
theorem C76_bounded (inline : Bool) (n : Nat) (s s' : S) (h : Reach inline s) (hs : Owns inline n s s') :
    n + measure s' ≤ measure s := by
  induction hs with
  | nil => omega
  | cons h1 _ ih =>
    have := measure_lt h.inv h1
    obtain ⟨c, _, hc⟩ := h1
    have := ih (.step _ _ c h hc)
    omega

/-- Generated code does not get stuck: it can always go on until it is at rest. (With a dispatcher. If the
coroutine is resumed inside the call of its continuation, see `C76_inline_deadlock_broken`.) -/
theorem C76_settles_partial (s : S) (h : Reach false s) : ∃ n s', Owns false n s s' ∧ Quiet s' := by
  suffices ∀ m s, Reach false s → measure s ≤ m → ∃ n s', Owns false n s s' ∧ Quiet s' from this _ s h (Nat.le_refl _)
  intro m
  induction m with
  | zero =>
    intro s h hm
    by_cases hq : Quiet s
    · exact ⟨0, s, .nil s, hq⟩
    · obtain ⟨s1, h1⟩ := progress h hq
      have := measure_lt h.inv h1
      omega
  | succ m ih =>
    intro s h hm
    by_cases hq : Quiet s
    · exact ⟨0, s, .nil s, hq⟩
    · obtain ⟨s1, h1⟩ := progress h hq
      have hlt := measure_lt h.inv h1
      have hr : Reach false s1 := by obtain ⟨c, _, hc⟩ := h1; exact .step _ _ c h hc
      obtain ⟨n, s', hs, hq'⟩ := ih s1 hr (by omega)
      exact ⟨n + 1, s', .cons h1 hs, hq'⟩

/-- No wake is lost: while the coroutine is suspended and nothing is on its way, no waker was called since
the last poll began. -/
theorem C76_no_lost_wakeup (inline : Bool) (s : S) (h : Reach inline s) (hq : Quiet s) (hp : s.pc = .suspended) :
    s.owed = false := by
  cases ho : s.owed with
  | false => rfl
  | true =>
    have hk := h.inv.kept ho
    unfold S.Kept at hk
    simp only [hp] at hk
    rcases hk with (hk | hk) | hk
    · have := hq.1; omega
    · rw [hq.2.2.1] at hk; cases hk
    · rw [hq.2.2.1] at hk; exact absurd rfl hk

/-- A waker was called since the last poll began, or the future is polled again. -/
theorem own_keeps {s s' : S} (j : Inv s) (h : Own false s s') (hw : (s.owed = true ∧ results s.log = []) ∨ s.pc = .polling) :
    (s'.owed = true ∧ results s'.log = []) ∨ s'.pc = .polling := by
  have hadd : ∀ (l : List Ev) (e : Ev), (∀ r, e ≠ .result r) → results (l ++ [e]) = results l := by
    intro l e he
    rw [results_append]
    cases e <;> simp_all [results]
  have hdec : ∀ s : S, results s.decr.log = results s.log := by
    intro s
    unfold S.decr S.add
    split
    · rfl
    · split
      · exact hadd _ _ (by simp)
      · rfl
  have hres : ∀ (s : S) (n : Nat), results (s.resume n).log = results s.log := by
    intro s n
    unfold S.resume S.add
    dsimp only
    split
    · split <;> exact hadd _ _ (by simp)
    · exact hadd _ _ (by simp)
  have hdel : ∀ s : S, s.delRef.log = s.log ∧ s.delRef.owed = s.owed := by
    intro s; unfold S.delRef; split <;> exact ⟨rfl, rfl⟩
  obtain ⟨c, hc, h⟩ := h
  cases c with
  | clone => cases hc
  | drop => cases hc
  | wake => cases hc
  | answer r => cases hc
  | lock =>
    simp only [step] at h
    split at h
    · cases h; exact hw
    · cases h
  | endWake =>
    simp only [step] at h
    split at h
    · cases h
      obtain ⟨e1, _, _, _, _, e6⟩ := decr_frame s
      dsimp only
      rw [e1, e6, hdec]; exact hw
    · cases h
  | wakeStep =>
    simp only [step] at h
    cases hh : s.holder <;> simp only [S.wakeStep, hh] at h
    case free => cases h
    case driver => cases h
    case locked => split at h <;> cases h <;> exact hw
    case invoke n =>
      rw [if_neg (by simp)] at h
      cases h
      obtain ⟨_, hp, _⟩ := j.target hh
      have hnp : s.pc ≠ .polling := by
        rcases hp with ⟨e, _⟩ | ⟨e | e | e, _⟩ <;> rw [e] <;> simp
      rcases hw with hw | hw
      · left
        dsimp only
        rw [(resume_frame s n).2.2.2.2, hres]
        exact hw
      · exact absurd hw hnp
    case inside =>
      split at h
      · cases h
      · cases h; exact hw
    case del =>
      cases h
      dsimp only
      rw [(hdel s).1, (hdel s).2, (delRef_frame s).1]
      exact hw
    case unlock => cases h; exact hw
  | driver =>
    simp only [step] at h
    rcases hw with ⟨ho, hr⟩ | hp
    · cases hp : s.pc <;> simp only [S.driver, hp] at h
      case start =>
        cases h
        left
        have : s.incr.owed = s.owed ∧ s.incr.log = s.log := by unfold S.incr; split <;> exact ⟨rfl, rfl⟩
        dsimp only
        rw [this.1, this.2]; exact ⟨ho, hr⟩
      case check => split at h <;> cases h; exact .inl ⟨ho, hr⟩
      case lockFuture => split at h <;> cases h; exact .inr rfl
      case polling => cases h
      case deliver r => cases r <;> dsimp only at h <;> cases h <;> exact .inl ⟨ho, hr⟩
      case store => split at h <;> cases h; exact .inl ⟨ho, hr⟩
      case stored =>
        split at h
        · cases h; exact .inl ⟨ho, hr⟩
        · cases h
          left
          dsimp only
          rw [(resume_frame s _).2.2.2.2, hres]; exact ⟨ho, hr⟩
        · cases h; exact .inl ⟨ho, hr⟩
      case storeInvoke =>
        cases h
        left
        dsimp only
        rw [(resume_frame s _).2.2.2.2, hres]; exact ⟨ho, hr⟩
      case storeDel =>
        cases h
        left
        dsimp only
        rw [(hdel s).1, (hdel s).2]; exact ⟨ho, hr⟩
      case storeUnlock => cases h; exact .inl ⟨ho, hr⟩
      case ret c =>
        cases h
        left
        dsimp only
        rw [(decr_frame _).2.2.2.2.2, (decr_frame _).2.2.2.2.2, hdec, hdec]; exact ⟨ho, hr⟩
      case back c => cases c <;> dsimp only at h <;> (try split at h) <;> cases h <;> exact .inl ⟨ho, hr⟩
      case suspended => cases h
      case resumed b => cases b <;> dsimp only at h <;> cases h <;> exact .inl ⟨ho, hr⟩
      case cleanup o =>
        cases h
        left
        dsimp only
        rw [(decr_frame _).2.2.2.2.2, hdec]
        exact ⟨ho, (hadd _ _ (by simp)).trans hr⟩
      case finished o => cases h
    · simp only [S.driver, hp] at h; cases h

/-- When a waker was called while the call is suspended, generated code polls the future again: it comes to rest, and
whenever it does, the code of the user is being polled. -/
theorem C76_woken_is_polled_partial (s : S) (h : Reach false s) (hp : s.pc = .suspended) (ho : s.owed = true) :
    (∃ n s', Owns false n s s' ∧ Quiet s') ∧ ∀ n s', Owns false n s s' → Quiet s' → s'.pc = .polling := by
  refine ⟨C76_settles_partial s h, ?_⟩
  have hr : results s.log = [] := by
    have := h.log.result
    unfold S.Result at this
    simp only [hp] at this
    exact this
  suffices ∀ n s s', Reach false s → ((s.owed = true ∧ results s.log = []) ∨ s.pc = .polling) → Owns false n s s' →
      Quiet s' → s'.pc = .polling from fun n s' => this n s s' h (.inl ⟨ho, hr⟩)
  intro n s s' h hw hs hq
  induction hs with
  | nil s =>
    rcases hw with ⟨ho, hr⟩ | hw
    · rcases hq.2.2.2 with hp | hp | ⟨o, hp⟩
      · exact hp
      · rw [C76_no_lost_wakeup false s h hq hp] at ho; cases ho
      · have := h.log.result
        unfold S.Result at this
        simp only [hp] at this
        obtain ⟨r, e, _⟩ := this
        rw [hr] at e; cases e
    · exact hw
  | cons h1 _ ih =>
    have hw' := own_keeps h.inv h1 hw
    obtain ⟨c, _, hc⟩ := h1
    exact ih (.step _ _ c h hc) hw' hq

/-- Polls that are on their way. -/
def coming (s : S) : Nat :=
  (match s.pc with
    | .start | .check | .lockFuture | .storeInvoke | .storeDel | .resumed false => 1
    | .storeUnlock | .ret .pending | .back .pending => if s.cont = .resumed then 1 else 0
    | _ => 0) +
  s.waiting + (match s.holder with | .locked | .invoke _ => 1 | _ => 0) + if s.sched = .waked then 1 else 0

def NoExtra (s : S) : Prop := s.log.count .polled + coming s ≤ 1 + s.wakes

theorem noExtra_frame {s s' : S} (h : NoExtra s) (h1 : s'.log.count .polled = s.log.count .polled) (h2 : coming s' ≤ coming s)
    (h3 : s'.wakes = s.wakes) : NoExtra s' := by
  unfold NoExtra at *
  omega

theorem incr_rest (s : S) : s.incr.log = s.log ∧ s.incr.wakes = s.wakes ∧ s.incr.sched = s.sched ∧ s.incr.cont = s.cont := by
  unfold S.incr; split <;> exact ⟨rfl, rfl, rfl, rfl⟩

theorem decr_rest (s : S) : s.decr.log.count .polled = s.log.count .polled ∧ s.decr.wakes = s.wakes ∧ s.decr.sched = s.sched ∧
    s.decr.cont = s.cont := by
  unfold S.decr S.add
  split
  · exact ⟨rfl, rfl, rfl, rfl⟩
  · split
    · refine ⟨?_, rfl, rfl, rfl⟩
      simp only [List.count_append, List.count_singleton]
      rfl
    · exact ⟨rfl, rfl, rfl, rfl⟩

theorem delRef_rest (s : S) : s.delRef.log = s.log ∧ s.delRef.wakes = s.wakes ∧ s.delRef.sched = s.sched ∧
    s.delRef.cont = s.cont := by
  unfold S.delRef; split <;> exact ⟨rfl, rfl, rfl, rfl⟩

theorem resume_rest (s : S) (n : Nat) : (s.resume n).log.count .polled = s.log.count .polled ∧ (s.resume n).wakes = s.wakes ∧
    (s.resume n).sched = s.sched := by
  have : (s.log ++ [Ev.resume n]).count .polled = s.log.count .polled := by
    simp only [List.count_append, List.count_singleton]; rfl
  unfold S.resume S.add
  dsimp only
  split
  · split <;> exact ⟨this, rfl, rfl⟩
  · exact ⟨this, rfl, rfl⟩

theorem noExtra {inline : Bool} {s : S} (h : Reach inline s) : NoExtra s := by
  induction h with
  | init => simp [NoExtra, coming]
  | step s s' c hr e ih =>
    have j := hr.inv
    have ht := j.token
    unfold S.Token at ht
    cases c with
    | clone =>
      simp only [step] at e
      split at e
      · cases e
        obtain ⟨e1, e2, e3, e4⟩ := incr_frame s
        obtain ⟨f1, f2, f3, f4⟩ := incr_rest s
        refine noExtra_frame ih ?_ ?_ ?_
        · dsimp only; rw [f1]
        · simp only [coming, e1, e2, e3, f3, f4]; omega
        · exact f2
      · cases e
    | drop =>
      simp only [step] at e
      split at e
      · cases e
        obtain ⟨e1, e2, e3, e4, _⟩ := decr_frame s
        obtain ⟨f1, f2, f3, f4⟩ := decr_rest s
        refine noExtra_frame ih f1 ?_ f2
        simp only [coming, e1, e2, e3, f3, f4]; omega
      · cases e
    | wake =>
      simp only [step] at e
      split at e
      · cases e
        simp only [NoExtra, coming] at ih ⊢
        omega
      · cases e
    | answer r =>
      cases r <;> simp only [step] at e <;> split at e
      · rename_i hp
        cases e
        refine noExtra_frame ih rfl ?_ rfl
        simp only [coming, hp]; omega
      · cases e
      · rename_i hp
        cases e
        refine noExtra_frame ih ?_ ?_ rfl
        · simp only [S.add, List.count_append, List.count_singleton]; rfl
        · simp only [coming, S.add, hp]; omega
      · cases e
    | lock =>
      simp only [step] at e
      split at e
      · rename_i hh
        cases e
        refine noExtra_frame ih rfl ?_ rfl
        simp only [coming, hh.1]; omega
      · cases e
    | endWake =>
      simp only [step] at e
      split at e
      · cases e
        obtain ⟨e1, e2, e3, e4, _⟩ := decr_frame s
        obtain ⟨f1, f2, f3, f4⟩ := decr_rest s
        refine noExtra_frame ih f1 ?_ f2
        simp only [coming, e1, e2, e3, f3, f4]; omega
      · cases e
    | wakeStep =>
      simp only [step] at e
      cases hh : s.holder <;> simp only [S.wakeStep, hh] at e
      case free => cases e
      case driver => cases e
      case locked =>
        cases hs : s.sched <;> simp only [hs] at e <;> cases e <;> refine noExtra_frame ih rfl ?_ rfl <;>
          simp [coming, hh, hs] <;> omega
      case invoke n =>
        obtain ⟨e2, e3, _⟩ := resume_frame s n
        obtain ⟨f1, f2, f3⟩ := resume_rest s n
        obtain ⟨hn, hp, hst⟩ := j.target hh
        subst hn
        have hc : s.cont ≠ .resumed := by
          rcases hp with ⟨_, e⟩ | ⟨_, e⟩ <;> rw [e] <;> simp
        have key : ∀ hd : Holder, (match hd with | .locked | .invoke _ => 1 | _ => 0) = 0 →
            coming { s.resume s.cur with holder := hd } ≤ coming s ∧
            coming { s.resume s.cur with holder := hd, inl := true } ≤ coming s := by
          intro hd h0
          rw [resume_cur hc]
          rcases hp with ⟨hp, hc⟩ | ⟨hp | hp | hp, hc⟩ <;> simp only [coming, hp, hc, hh, h0, S.add] <;> simp <;>
            omega
        split at e
        · cases e; exact noExtra_frame ih f1 (key .inside rfl).2 f2
        · cases e; exact noExtra_frame ih f1 (key .del rfl).1 f2
      case inside =>
        split at e
        · cases e
        · cases e
          refine noExtra_frame ih rfl ?_ rfl
          simp only [coming, hh]; omega
      case del =>
        cases e
        obtain ⟨e1, e2, e3, e4⟩ := delRef_frame s
        obtain ⟨f1, f2, f3, f4⟩ := delRef_rest s
        refine noExtra_frame ih ?_ ?_ f2
        · dsimp only; rw [f1]
        · simp only [coming, hh, e1, e3, f3, f4]; omega
      case unlock =>
        cases e
        refine noExtra_frame ih rfl ?_ rfl
        simp only [coming, hh]; omega
    | driver =>
      simp only [step] at e
      obtain ⟨i1, i2, i3, i4⟩ := incr_frame s
      obtain ⟨i5, i6, i7, i8⟩ := incr_rest s
      cases hp : s.pc <;> simp only [S.driver, hp] at e <;> simp only [hp] at ht
      case start =>
        cases e
        refine noExtra_frame ih ?_ ?_ i6
        · dsimp only; rw [i5]
        · simp only [coming, hp, i2, i3, i7]; omega
      case check =>
        split at e
        · cases e
          refine noExtra_frame ih rfl ?_ rfl
          simp only [coming, hp]; omega
        · cases e
      case lockFuture =>
        split at e
        · cases e
        · cases e
          have hl : (s.log ++ [Ev.polled]).count .polled = s.log.count .polled + 1 := by simp
          simp only [NoExtra, coming, hp, S.add, i2, i3, i5, i6, i7, hl] at ih ⊢
          omega
      case polling => cases e
      case deliver r =>
        cases r <;> dsimp only at e <;> cases e <;> refine noExtra_frame ih rfl ?_ rfl <;>
          simp only [coming, hp] <;> omega
      case store =>
        split at e
        · rename_i hh
          cases e
          refine noExtra_frame ih rfl ?_ rfl
          simp only [coming, hp, hh]; omega
        · cases e
      case stored =>
        cases hs : s.sched <;> simp only [hs] at e
        case empty =>
          cases e
          refine noExtra_frame ih rfl ?_ rfl
          simp [coming, hp, hs, ht.2.2]
        case set n => rw [hs] at ht; simp [Sched.target] at ht
        case waked =>
          cases e
          refine noExtra_frame ih rfl ?_ rfl
          simp [coming, hp, hs]; omega
      case storeInvoke =>
        cases e
        obtain ⟨e2, e3, _⟩ := resume_frame s s.cur
        obtain ⟨f1, f2, f3⟩ := resume_rest s s.cur
        refine noExtra_frame ih f1 ?_ f2
        simp only [coming, hp, e2, e3, f3]; omega
      case storeDel =>
        cases e
        obtain ⟨e1, e2, e3, e4⟩ := delRef_frame s
        obtain ⟨f1, f2, f3, f4⟩ := delRef_rest s
        refine noExtra_frame ih ?_ ?_ f2
        · dsimp only; rw [f1]
        · simp only [coming, hp, e2, e3, f3, f4, ht.2.2]; simp
      case storeUnlock =>
        cases e
        refine noExtra_frame ih rfl ?_ rfl
        simp only [coming, hp]; omega
      case ret c =>
        cases e
        obtain ⟨e1, e2, e3, e4, _⟩ := decr_frame (S.decr { s with futLock := false, pc := .ret c })
        obtain ⟨f1, f2, f3, f4, _⟩ := decr_frame { s with futLock := false, pc := .ret c }
        obtain ⟨g1, g2, g3, g4⟩ := decr_rest (S.decr { s with futLock := false, pc := .ret c })
        obtain ⟨k1, k2, k3, k4⟩ := decr_rest { s with futLock := false, pc := .ret c }
        refine noExtra_frame ih ?_ ?_ ?_
        · dsimp only; rw [g1, k1]
        · cases c <;> simp only [coming, hp, e2, e3, f2, f3, g3, k3, g4, k4] <;> omega
        · dsimp only; rw [g2, k2]
      case back c =>
        cases c with
        | pending =>
          dsimp only at e
          cases hc : s.cont <;> simp only [hc] at e <;> cases e <;> refine noExtra_frame ih rfl ?_ rfl <;>
            simp [coming, hp, hc]
        | complete =>
          dsimp only at e
          cases hc : s.cont <;> simp only [hc] at e <;> cases e <;> refine noExtra_frame ih rfl ?_ rfl <;>
            simp [coming, hp, hc]
        | threw o =>
          dsimp only at e
          cases e
          refine noExtra_frame ih rfl ?_ rfl
          simp [coming, hp]
      case suspended => cases e
      case resumed b =>
        cases b <;> dsimp only at e <;> cases e <;> refine noExtra_frame ih rfl ?_ rfl <;> simp [coming, hp]
      case cleanup o =>
        cases e
        obtain ⟨e1, e2, e3, e4, _⟩ := decr_frame (s.add .freed)
        obtain ⟨g1, g2, g3, g4⟩ := decr_rest (s.add .freed)
        have f2 : (s.add .freed).holder = s.holder := rfl
        have f3 : (s.add .freed).waiting = s.waiting := rfl
        have f4 : (s.add .freed).sched = s.sched := rfl
        refine noExtra_frame ih ?_ ?_ g2
        · dsimp only
          rw [g1]
          simp only [S.add, List.count_append, List.count_singleton]; rfl
        · simp only [coming, hp, e2, e3, g3, f2, f3, f4]; omega
      case finished o => cases e

/-- The future is not polled without reason: after the first poll, every poll belongs to a call of a waker. -/
theorem C76_no_busy_loop (inline : Bool) (s : S) (h : Reach inline s) : s.log.count .polled ≤ 1 + s.wakes := by
  have := noExtra h
  unfold NoExtra at this
  omega

/-- The future is not polled again after it gave its result. -/
theorem C76_not_polled_after_result (inline : Bool) (s : S) (h : Reach inline s) (pre post : List Ev) (r : Res)
    (hl : s.log = pre ++ .result r :: post) : Ev.polled ∉ post := h.log.order pre post r hl

/-- The call ends the way the future ended. (Except for `null`, see `C76_null_result_broken`.) -/
theorem C76_outcome_partial (inline : Bool) (s : S) (h : Reach inline s) (o : Out) (hp : s.pc = .finished o) :
    ∃ r, Ev.result r ∈ s.log ∧ (r ≠ .ok none → o = expected r) := by
  have := h.log.result
  unfold S.Result at this
  simp only [hp] at this
  obtain ⟨r, hr, ho⟩ := this
  refine ⟨r, ?_, ?_⟩
  · have hm : r ∈ results s.log := by rw [hr]; simp
    obtain ⟨e, he, h2⟩ := List.mem_filterMap.1 hm
    cases e <;> simp at h2
    subst h2
    exact he
  · intro hne
    rw [← ho]
    cases r with
    | ok v =>
      cases v with
      | none => exact absurd rfl hne
      | some v => rfl
    | err e => rfl
    | panic => rfl

/-- The future gives one result at most. -/
theorem C76_one_result (inline : Bool) (s : S) (h : Reach inline s) (r r' : Res) (hr : Ev.result r ∈ s.log)
    (hr' : Ev.result r' ∈ s.log) : r = r' := by
  have hm : ∀ x, Ev.result x ∈ s.log → x ∈ results s.log := fun x hx => List.mem_filterMap.2 ⟨_, hx, rfl⟩
  have h1 := hm r hr
  have h2 := hm r' hr'
  have hl : (results s.log).length ≤ 1 := by
    have := h.log.result
    unfold S.Result at this
    split at this
    all_goals first
      | (rw [this]; simp)
      | (obtain ⟨x, e, _⟩ := this; rw [e]; simp)
  match e : results s.log with
  | [] => rw [e] at h1; cases h1
  | [x] =>
    rw [e, List.mem_singleton] at h1 h2
    rw [h1, h2]
  | x :: y :: l => rw [e] at hl; simp at hl

/-- The handle is freed exactly once, when the call ends. -/
theorem C76_freed (inline : Bool) (s : S) (h : Reach inline s) :
    s.log.count .freed = 1 ∧ (∃ o, s.pc = .finished o) ∨ s.log.count .freed = 0 ∧ ∀ o, s.pc ≠ .finished o := by
  have := h.log.freed
  cases hp : s.pc <;> rw [hp] at this <;> simp only [Pc.handle] at this <;> simp <;> omega

/-- The future is dropped at most once, namely when the call has ended, no waker is left and no thread is
calling one. -/
theorem C76_dropped (inline : Bool) (s : S) (h : Reach inline s) :
    s.log.count .dropped ≤ 1 ∧
    (Ev.dropped ∈ s.log ↔ (∃ o, s.pc = .finished o) ∧ s.wakers = 0 ∧ s.waiting = 0 ∧ s.ending = 0 ∧ s.holder = .free) := by
  have hd := h.log.dropped
  have hs := h.inv.strong
  have hl := h.inv.locks
  constructor
  · rw [hd]; split <;> omega
  · rw [← List.count_pos_iff, hd]
    have hdrv : ∀ o, s.pc = .finished o → s.holder ≠ .driver := by
      intro o hp e; have := hl.1 e; rw [hp] at this; cases this
    constructor
    · intro h0
      have h0 : s.strong = 0 := by
        apply Classical.byContradiction; intro hn; rw [if_neg hn] at h0; omega
      have hfin : ∃ o, s.pc = .finished o := by
        cases hp : s.pc <;> rw [hp] at hs <;> simp only [Pc.handle] at hs <;> first | omega | exact ⟨_, rfl⟩
      obtain ⟨o, hp⟩ := hfin
      have hfree : s.holder = .free := by
        cases hh : s.holder <;> rw [hh] at hs <;> simp only [Holder.refs] at hs <;>
          first | omega | rfl | exact absurd hh (hdrv o hp)
      exact ⟨⟨o, hp⟩, by omega, by omega, by omega, hfree⟩
    · rintro ⟨⟨o, hp⟩, h1, h2, h3, h4⟩
      rw [hp, h1, h2, h3, h4] at hs
      rw [if_pos (by rw [hs]; rfl)]
      omega

/-- Global references: one while the coroutine is suspended, none when the call is over (apart from one a thread
is just deleting). -/
theorem C76_references (inline : Bool) (s : S) (h : Reach inline s) (hf : s.holder = .free) :
    (s.pc = .suspended → s.globals = 1) ∧ (∀ o, s.pc = .finished o → s.globals = 0) := by
  have hg := h.inv.globals
  have ht := h.inv.token
  unfold S.Token at ht
  rw [hf] at hg
  constructor
  · intro hp
    simp only [hp, hf, Holder.target] at ht
    rcases ht.2 with ⟨e, _⟩ | ⟨_, e⟩
    · rw [Sched.of_target e, hp] at hg
      rw [hg]; rfl
    · cases e
  · intro o hp
    simp only [hp] at ht
    rw [hg, hp]
    cases hs : s.sched with
    | set n => rw [hs] at ht; simp [Sched.target] at ht
    | _ => rfl

/-! ### Histories -/

/-- A future that is pending once, woken by another thread, and then returns 7. -/
def demo : List Cmd :=
  [.driver, .driver, .driver, .clone, .answer none, .driver, .driver, .driver, .driver, .driver, .wake, .lock, .wakeStep,
   .wakeStep, .wakeStep, .wakeStep, .driver, .driver, .driver, .driver, .answer (some (.ok (some 7))), .endWake]

theorem demo_reach {inline : Bool} {cs : List Cmd} {p : S → Bool}
    (h : (doAll inline {} cs).any p = true) : ∃ s, Reach inline s ∧ p s = true := by
  cases e : doAll inline {} cs with
  | none => rw [e] at h; cases h
  | some s => rw [e] at h; exact ⟨s, reach_doAll cs {} s .init e, h⟩

example : ∃ s, Reach false s ∧ decide (s.pc = .finished (.returned (some 7)) ∧ s.globals = 0 ∧ s.log =
    [.polled, .resume 1, .polled, .result (.ok (some 7)), .freed, .dropped]) = true :=
  demo_reach (cs := demo ++ [.driver, .driver, .driver, .driver, .driver]) (by decide)

example : ∃ s, Reach false s ∧ decide (s.pc = .suspended ∧ s.owed = true ∧ s.globals = 1) = true :=
  demo_reach (cs := demo.take 11) (by decide)

example : ∃ s, Reach false s ∧ decide (s.pc = .suspended ∧ s.owed = false ∧ s.waiting = 0 ∧ s.ending = 0 ∧ s.holder = .free) = true :=
  demo_reach (cs := demo.take 10) (by decide)

/-- Woken during the poll: the continuation is called before the poll returns. -/
example : ∃ s, Reach false s ∧ decide (s.pc = .resumed false ∧ s.log = [.polled, .resume 1]) = true :=
  demo_reach (cs := [.driver, .driver, .driver, .clone, .wake, .lock, .wakeStep, .wakeStep, .answer none, .driver, .driver,
    .driver, .driver, .driver, .driver, .driver]) (by decide)

/-! ### Where the code does otherwise -/

/-- `null` is a fine result of a function that returns an option, but the call ends with an exception. -/
theorem C76_null_result_broken : ∃ s, Reach false s ∧ Ev.result (.ok none) ∈ s.log ∧ s.pc = .finished .npe := by
  obtain ⟨s, hs, hp⟩ := demo_reach (inline := false)
    (cs := [.driver, .driver, .driver, .answer (some (.ok none)), .driver, .driver, .driver, .driver, .driver])
    (p := fun s => decide (Ev.result (.ok none) ∈ s.log ∧ s.pc = .finished .npe)) (by decide)
  exact ⟨s, hs, of_decide_eq_true hp⟩

theorem stuck {s s' : S} {c : Cmd} (h1 : s.pc = .check) (h2 : s.holder = .inside) (h3 : s.inl = true)
    (e : step true s c = some s') : s'.pc = .check ∧ s'.holder = .inside ∧ s'.inl = true := by
  obtain ⟨d1, d2, _, _, d5, _⟩ := decr_frame s
  have hi : s.incr.pc = s.pc ∧ s.incr.holder = s.holder ∧ s.incr.inl = s.inl := by
    unfold S.incr; split <;> exact ⟨rfl, rfl, rfl⟩
  cases c with
  | clone =>
    simp only [step] at e
    split at e
    · cases e; exact ⟨hi.1.trans h1, hi.2.1.trans h2, hi.2.2.trans h3⟩
    · cases e
  | drop =>
    simp only [step] at e
    split at e
    · cases e; exact ⟨d1.trans h1, d2.trans h2, d5.trans h3⟩
    · cases e
  | wake =>
    simp only [step] at e
    split at e
    · cases e; exact ⟨h1, h2, h3⟩
    · cases e
  | answer r =>
    cases r <;> simp only [step] at e <;> split at e
    all_goals first
      | cases e; done
      | (rename_i hp; rw [h1] at hp; cases hp)
  | driver => simp only [step, S.driver, h1] at e; rw [h2] at e; cases e
  | lock =>
    simp only [step] at e
    split at e
    · rename_i hh; rw [h2] at hh; cases hh.1
    · cases e
  | wakeStep =>
    simp only [step, S.wakeStep, h2] at e
    rw [if_pos h3] at e
    cases e
  | endWake =>
    simp only [step] at e
    split at e
    · cases e; exact ⟨d1.trans h1, d2.trans h2, d5.trans h3⟩
    · cases e

/-- The thread that wakes holds the mutex around the scheduler while it calls the continuation. If this
resumes the coroutine on that thread, the coroutine polls again and waits for that mutex forever: whatever
happens later, the future is never polled again. -/
theorem C76_inline_deadlock_broken :
    ∃ s, Reach true s ∧ s.owed = true ∧ ∀ s', Later true s s' → s'.pc = .check ∧ s'.holder = .inside := by
  obtain ⟨s, hs, hp⟩ := demo_reach (inline := true) (cs := demo.take 14 ++ [.driver, .driver])
    (p := fun s => decide (s.owed = true ∧ s.pc = .check ∧ s.holder = .inside ∧ s.inl = true)) (by decide)
  obtain ⟨h0, h1, h2, h3⟩ := of_decide_eq_true hp
  refine ⟨s, hs, h0, ?_⟩
  clear hs hp h0
  suffices ∀ s s', Later true s s' → s.pc = .check → s.holder = .inside → s.inl = true →
      s'.pc = .check ∧ s'.holder = .inside from fun s' h => this s s' h h1 h2 h3
  clear h1 h2 h3
  intro s s' h
  induction h with
  | nil s => exact fun h1 h2 _ => ⟨h1, h2⟩
  | cons c e _ ih =>
    intro h1 h2 h3
    obtain ⟨e1, e2, e3⟩ := stuck h1 h2 h3 e
    exact ih e1 e2 e3

/-- The future outlives the call if somebody keeps a waker: freeing the handle does not drop the future (that of
uniffi_core does). If the future itself keeps it, it is never dropped. -/
theorem C76_future_outlives_call_broken : ∃ s, Reach false s ∧ Quiet s ∧ (∃ o, s.pc = .finished o) ∧ Ev.dropped ∉ s.log := by
  obtain ⟨s, hs, hp⟩ := demo_reach (inline := false)
    (cs := [.driver, .driver, .driver, .clone, .answer (some (.ok (some 1))), .driver, .driver, .driver, .driver, .driver])
    (p := fun s => decide (s.waiting = 0 ∧ s.ending = 0 ∧ s.holder = .free ∧ s.pc = .finished (.returned (some 1)) ∧
      Ev.dropped ∉ s.log)) (by decide)
  obtain ⟨h1, h2, h3, h4, h5⟩ := of_decide_eq_true hp
  exact ⟨s, hs, ⟨h1, h2, h3, .inr (.inr ⟨_, h4⟩)⟩, ⟨_, h4⟩, h5⟩

end Verif.Props.JniAsync
