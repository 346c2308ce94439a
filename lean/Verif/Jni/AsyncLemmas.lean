import Verif.Jni.Async
/-
What holds in all states of `Jni/Async.lean`.
-/
namespace Verif.JniAsync

/-- The `Arc`s that a poll in progress holds. -/
def Pc.refs : Pc → Nat
  | .check | .lockFuture => 1
  | .polling | .deliver _ | .store | .stored | .storeInvoke | .storeDel | .storeUnlock | .ret _ => 2
  | _ => 0

/-- The `Arc` of the handle. -/
def Pc.handle : Pc → Nat
  | .finished _ => 0
  | _ => 1

/-- The poll holds the mutex around the scheduler. -/
def Pc.locks : Pc → Bool
  | .stored | .storeInvoke | .storeDel | .storeUnlock => true
  | _ => false

/-- The global reference of a poll that did not give it away. -/
def Pc.globals : Pc → Nat
  | .store | .stored | .storeInvoke | .storeDel => 1
  | _ => 0

def Holder.refs : Holder → Nat
  | .free | .driver => 0
  | _ => 1

def Holder.globals : Holder → Nat
  | .invoke _ | .inside | .del => 1
  | _ => 0

def Sched.globals : Sched → Nat
  | .set _ => 1
  | _ => 0

def Holder.target : Holder → Option Nat
  | .invoke n => some n
  | _ => none

def Sched.target : Sched → Option Nat
  | .set n => some n
  | _ => none

/-- Where continuation `cur` is. -/
def S.Token (s : S) : Prop :=
  match s.pc with
  | .start | .resumed _ | .cleanup _ | .finished _ => s.sched.target = none ∧ s.holder.target = none
  | .check | .lockFuture | .polling | .deliver _ | .store | .stored | .storeInvoke =>
    s.sched.target = none ∧ s.holder.target = none ∧ s.cont = .undecided
  | .ret .complete | .back .complete => s.sched.target = none ∧ s.holder.target = none ∧ s.cont = .undecided
  | .ret (.threw _) | .back (.threw _) => s.sched.target = none ∧ s.holder.target = none
  | .storeDel => s.sched.target = none ∧ s.holder.target = none ∧ s.cont = .resumed
  | .storeUnlock | .ret .pending | .back .pending =>
    (s.sched.target = some s.cur ∧ s.holder.target = none ∧ s.cont = .undecided) ∨
    (s.sched.target = none ∧ s.holder.target = some s.cur ∧ s.cont = .undecided) ∨
    (s.sched.target = none ∧ s.holder.target = none ∧ s.cont = .resumed)
  | .suspended => s.cont = .suspended ∧
    ((s.sched.target = some s.cur ∧ s.holder.target = none) ∨ (s.sched.target = none ∧ s.holder.target = some s.cur))

/-- A wake that is on its way. -/
def S.Waking (s : S) : Prop := 0 < s.waiting ∨ s.holder = .locked

/-- A wake after the last poll began was not forgotten. -/
def S.Kept (s : S) : Prop :=
  match s.pc with
  | .polling | .store | .stored => s.sched = .waked ∨ s.Waking
  | .storeUnlock | .ret .pending | .back .pending => s.Waking ∨ s.holder.target ≠ none ∨ s.cont = .resumed
  | .suspended => s.Waking ∨ s.holder.target ≠ none
  | _ => True

structure Inv (s : S) : Prop where
  bad : s.bad = false
  strong : s.strong = s.pc.handle + s.pc.refs + s.wakers + s.waiting + s.ending + s.holder.refs
  futLock : s.futLock = decide (s.pc.refs = 2)
  locks : s.holder = .driver ↔ s.pc.locks = true
  globals : s.globals = s.pc.globals + s.holder.globals + s.sched.globals
  token : s.Token
  inl : s.inl = true → s.holder = .inside
  kept : s.owed = true → s.Kept

theorem resume_cur {s : S} (h : s.cont ≠ .resumed) : s.resume s.cur =
    { s.add (.resume s.cur) with cont := .resumed, pc := if s.cont = .suspended then .resumed false else s.pc } := by
  unfold S.resume
  simp only [S.add, if_true]
  cases hc : s.cont with
  | undecided => simp
  | suspended => simp
  | resumed => exact absurd hc h

theorem Sched.of_target {s : Sched} {n : Nat} (h : s.target = some n) : s = .set n := by
  cases s <;> simp_all [Sched.target]

theorem Holder.of_target {s : Holder} {n : Nat} (h : s.target = some n) : s = .invoke n := by
  cases s <;> simp_all [Holder.target]

theorem decr_eq {s : S} (h : s.strong ≠ 0) : s.decr =
    { s with strong := s.strong - 1, log := if s.strong = 1 then s.log ++ [.dropped] else s.log } := by
  unfold S.decr S.add
  rw [if_neg h]
  split
  · rename_i e; simp [e]
  · rename_i e; simp [e]

macro "fin" : tactic => `(tactic| (constructor <;> (try simp_all [S.incr, S.delRef, S.add, S.Token, S.Kept, S.Waking, Pc.handle, Pc.refs, Pc.locks, Pc.globals, Holder.refs, Holder.globals, Holder.target, Sched.globals, Sched.target]) <;> (try omega)))

theorem Inv.driver {s s' : S} (j : Inv s) (h : s.driver = some s') : Inv s' := by
  obtain ⟨sched, holder, waiting, ending, wakers, pc, cur, cont, inl, futLock, strong, globals, value, owed, log, bad⟩ := s
  obtain ⟨h1, h2, h3, h4, h5, h6, h7, h8⟩ := j
  cases pc <;> simp only [S.driver] at h
  case start =>
    cases h
    simp only [Pc.handle, Pc.refs] at *
    have : strong ≠ 0 := by omega
    fin
  case check =>
    split at h
    · cases h; fin
    · cases h
  case lockFuture =>
    split at h
    · cases h
    · cases h
      simp only [Pc.handle, Pc.refs] at *
      have : strong ≠ 0 := by omega
      fin
  case polling => cases h
  case deliver r => cases r <;> (cases h; fin)
  case store =>
    split at h
    · cases h; fin
    · cases h
  case stored =>
    cases sched <;> (cases h; fin)
  case storeInvoke =>
    cases h
    have hc : cont = .undecided := by simp_all [S.Token]
    subst hc
    simp only [S.resume, S.add, if_true]
    fin
  case storeDel =>
    cases h
    have hg : globals ≠ 0 := by simp_all [Pc.globals]
    fin
  case storeUnlock =>
    cases h; fin
  case ret c =>
    cases h
    simp only [Pc.handle, Pc.refs] at *
    have h0 : strong ≠ 0 := by omega
    rw [decr_eq (s := S.decr _), decr_eq] <;> try dsimp only
    · cases c <;> fin
    · exact h0
    · rw [decr_eq] <;> try dsimp only
      · omega
      · exact h0
  case back c =>
    cases c with
    | pending => cases cont <;> (cases h; fin)
    | complete => cases cont <;> (cases h; fin)
    | threw o => cases h; fin
  case suspended => cases h
  case resumed b => cases b <;> (cases h; fin)
  case cleanup o =>
    cases h
    simp only [Pc.handle, Pc.refs] at *
    have h0 : strong ≠ 0 := by omega
    rw [decr_eq] <;> try simp only [S.add]
    · fin
    · exact h0
  case finished o => cases h

/-- A thread about to call a continuation calls the current one, which waits. -/
theorem Inv.target {s : S} (j : Inv s) {n : Nat} (h : s.holder = .invoke n) :
    n = s.cur ∧ ((s.pc = .suspended ∧ s.cont = .suspended) ∨
      ((s.pc = .storeUnlock ∨ s.pc = .ret .pending ∨ s.pc = .back .pending) ∧ s.cont = .undecided)) ∧ s.sched.target = none := by
  have ht := j.token
  have e : s.holder.target = some n := by rw [h]; rfl
  unfold S.Token at ht
  split at ht <;> simp_all

theorem token_congr {s s' : S} (h : s.Token) (h1 : s'.pc = s.pc) (h2 : s'.sched.target = s.sched.target)
    (h3 : s'.holder.target = s.holder.target) (h4 : s'.cont = s.cont) (h5 : s'.cur = s.cur) : s'.Token := by
  unfold S.Token at h ⊢
  rw [h1, h2, h3, h4, h5]
  exact h

theorem kept_mono {s s' : S} (h : s.Kept) (h1 : s'.pc = s.pc) (h2 : s.sched = .waked → s'.sched = .waked ∨ s'.Waking)
    (h3 : s.Waking → s'.Waking) (h4 : s'.holder.target = s.holder.target) (h5 : s'.cont = s.cont) : s'.Kept := by
  unfold S.Kept at h ⊢
  rw [h1, h4, h5]
  have key : s.sched = .waked ∨ s.Waking → s'.sched = .waked ∨ s'.Waking := by
    rintro (h | h)
    · exact h2 h
    · exact .inr (h3 h)
  cases hp : s.pc <;> (try rename_i c; cases c) <;> simp only [hp] at h ⊢ <;>
    first
      | exact key h
      | exact h.imp_left h3

/-- `Scheduler::wake`. -/
theorem Inv.locked {s : S} (j : Inv s) (h : s.holder = .locked) :
    (s.sched = .empty → Inv { s with sched := .waked, holder := .unlock }) ∧
    (s.sched = .waked → Inv { s with holder := .unlock }) ∧
    (∀ n, s.sched = .set n → Inv { s with sched := .empty, holder := .invoke n }) := by
  obtain ⟨h1, h2, h3, h4, h5, h6, h7, h8⟩ := j
  have ht : s.holder.target = none := by rw [h]; rfl
  rw [h] at h2 h4 h5 h7
  have h4' : s.pc.locks = false := by
    cases e : s.pc.locks with
    | false => rfl
    | true => have := h4.2 e; cases this
  have hinl : s.inl = false := by
    cases e : s.inl with
    | false => rfl
    | true => have := h7 e; cases this
  refine ⟨fun e => ?_, fun e => ?_, fun n e => ?_⟩
  · rw [e] at h5
    have htok := h6
    refine ⟨h1, h2, h3, by simp [h4'], h5, token_congr h6 rfl (by rw [e]; rfl) (by rw [h]; rfl) rfl rfl, by simp [hinl], ?_⟩
    intro _
    unfold S.Token at htok
    unfold S.Kept
    cases hp : s.pc <;> (try rename_i c; cases c) <;> simp_all [Sched.target, Holder.target, Pc.locks]
  · have htok := h6
    refine ⟨h1, h2, h3, by simp [h4'], h5, token_congr h6 rfl rfl (by rw [h]; rfl) rfl rfl, by simp [hinl], ?_⟩
    intro _
    unfold S.Token at htok
    unfold S.Kept
    cases hp : s.pc <;> (try rename_i c; cases c) <;> simp_all [Sched.target, Holder.target, Pc.locks]
  · rw [e] at h5
    have htok := h6
    refine ⟨h1, h2, h3, by simp [h4'], ?_, ?_, by simp [hinl], ?_⟩
    · dsimp only [Holder.globals, Sched.globals] at h5 ⊢; omega
    · unfold S.Token at htok ⊢
      cases hp : s.pc <;> (try rename_i c; cases c) <;> simp_all [Sched.target, Holder.target, Pc.locks]
    · intro _
      unfold S.Token at htok
      unfold S.Kept
      cases hp : s.pc <;> (try rename_i c; cases c) <;> simp_all [Sched.target, Holder.target, Pc.locks]

theorem Inv.invoke {inline : Bool} {s s' : S} (j : Inv s) {n : Nat} (hh : s.holder = .invoke n)
    (h : s.wakeStep inline = some s') : Inv s' := by
  have ht := j.target hh
  obtain ⟨sched, holder, waiting, ending, wakers, pc, cur, cont, inl, futLock, strong, globals, value, owed, log, bad⟩ := s
  obtain ⟨h1, h2, h3, h4, h5, h6, h7, h8⟩ := j
  dsimp only at hh
  subst hh
  simp only [S.wakeStep] at h
  obtain ⟨rfl, hp, hs⟩ := ht
  rcases hp with ⟨rfl, rfl⟩ | ⟨hp, rfl⟩
  · split at h <;> cases h <;> simp only [S.resume, S.add, if_true] <;> fin
  · rw [if_neg (by simp)] at h
    cases h
    simp only [S.resume, S.add, if_true]
    dsimp only at hp
    rcases hp with rfl | rfl | rfl <;> fin

theorem Inv.wakeStep {inline : Bool} {s s' : S} (j : Inv s) (h : s.wakeStep inline = some s') : Inv s' := by
  cases hh : s.holder with
  | invoke n => exact j.invoke hh h
  | free => simp only [S.wakeStep, hh] at h; cases h
  | driver => simp only [S.wakeStep, hh] at h; cases h
  | locked =>
    simp only [S.wakeStep, hh] at h
    cases hs : s.sched with
    | empty => rw [hs] at h; cases h; exact (j.locked hh).1 hs
    | waked => rw [hs] at h; cases h; rw [← hs]; exact (j.locked hh).2.1 hs
    | set n => rw [hs] at h; cases h; exact (j.locked hh).2.2 n hs
  | inside =>
    simp only [S.wakeStep, hh] at h
    split at h
    · cases h
    · rename_i hi
      cases h
      obtain ⟨h1, h2, h3, h4, h5, h6, h7, h8⟩ := j
      rw [hh] at h2 h4 h5
      refine ⟨h1, h2, h3, by simpa using h4, h5, token_congr h6 rfl rfl (by rw [hh]; rfl) rfl rfl, fun e => absurd e hi, ?_⟩
      intro ho
      refine kept_mono (h8 ho) rfl (fun e => .inl e) (fun hw => ?_) (by rw [hh]; rfl) rfl
      rcases hw with hw | hw
      · exact .inl hw
      · rw [hh] at hw; cases hw
  | del =>
    simp only [S.wakeStep, hh] at h
    cases h
    obtain ⟨h1, h2, h3, h4, h5, h6, h7, h8⟩ := j
    rw [hh] at h2 h4 h5 h7
    have hg : s.globals ≠ 0 := by rw [h5]; simp only [Holder.globals]; omega
    unfold S.delRef
    rw [if_neg hg]
    refine ⟨h1, h2, h3, by simpa using h4, ?_, token_congr h6 rfl rfl (by rw [hh]; rfl) rfl rfl, fun e => (nomatch h7 e), ?_⟩
    · dsimp only [Holder.globals] at h5 ⊢; omega
    · intro ho
      refine kept_mono (h8 ho) rfl (fun e => .inl e) (fun hw => ?_) (by rw [hh]; rfl) rfl
      rcases hw with hw | hw
      · exact .inl hw
      · rw [hh] at hw; cases hw
  | unlock =>
    simp only [S.wakeStep, hh] at h
    cases h
    obtain ⟨h1, h2, h3, h4, h5, h6, h7, h8⟩ := j
    rw [hh] at h2 h4 h5 h7
    refine ⟨h1, ?_, h3, by simpa using h4, h5, token_congr h6 rfl rfl (by rw [hh]; rfl) rfl rfl, fun e => (nomatch h7 e), ?_⟩
    · dsimp only [Holder.refs] at h2 ⊢; omega
    · intro ho
      refine kept_mono (h8 ho) rfl (fun e => .inl e) (fun hw => ?_) (by rw [hh]; rfl) rfl
      rcases hw with hw | hw
      · exact .inl hw
      · rw [hh] at hw; cases hw

theorem Inv.step {inline : Bool} {s s' : S} {c : Cmd} (j : Inv s) (h : step inline s c = some s') : Inv s' := by
  cases c with
  | driver => exact j.driver h
  | wakeStep => exact j.wakeStep h
  | clone =>
    simp only [JniAsync.step] at h
    split at h
    · rename_i hc
      cases h
      obtain ⟨h1, h2, h3, h4, h5, h6, h7, h8⟩ := j
      have h0 : s.strong ≠ 0 := by
        rcases hc with hc | hc
        · rw [h2, hc]; simp [Pc.handle, Pc.refs]
        · omega
      unfold S.incr
      rw [if_neg h0]
      refine ⟨h1, ?_, h3, h4, h5, token_congr h6 rfl rfl rfl rfl rfl, h7, fun ho => ?_⟩
      · dsimp only; omega
      · exact kept_mono (h8 ho) rfl (fun e => .inl e) id rfl rfl
    · cases h
  | drop =>
    simp only [JniAsync.step] at h
    split at h
    · rename_i hc
      cases h
      obtain ⟨h1, h2, h3, h4, h5, h6, h7, h8⟩ := j
      rw [decr_eq (by omega)]
      refine ⟨h1, ?_, h3, h4, h5, token_congr h6 rfl rfl rfl rfl rfl, h7, fun ho => ?_⟩
      · dsimp only; omega
      · exact kept_mono (h8 ho) rfl (fun e => .inl e) id rfl rfl
    · cases h
  | wake =>
    simp only [JniAsync.step] at h
    split at h
    · rename_i hc
      cases h
      obtain ⟨h1, h2, h3, h4, h5, h6, h7, h8⟩ := j
      refine ⟨h1, ?_, h3, h4, h5, token_congr h6 rfl rfl rfl rfl rfl, h7, fun _ => ?_⟩
      · dsimp only; omega
      · have hw : ({ s with wakers := s.wakers - 1, waiting := s.waiting + 1, owed := true } : S).Waking :=
          .inl (Nat.succ_pos _)
        unfold S.Kept
        cases s.pc <;> (try rename_i c; cases c) <;> dsimp only <;>
          first
            | exact .inr hw
            | exact .inl hw
            | exact trivial
    · cases h
  | answer r =>
    cases r with
    | none =>
      simp only [JniAsync.step] at h
      split at h
      · rename_i hc
        cases h
        obtain ⟨sched, holder, waiting, ending, wakers, pc, cur, cont, inl, futLock, strong, globals, value, owed, log, bad⟩ := s
        obtain ⟨h1, h2, h3, h4, h5, h6, h7, h8⟩ := j
        dsimp only at hc
        subst hc
        fin
      · cases h
    | some r =>
      simp only [JniAsync.step] at h
      split at h
      · rename_i hc
        cases h
        obtain ⟨sched, holder, waiting, ending, wakers, pc, cur, cont, inl, futLock, strong, globals, value, owed, log, bad⟩ := s
        obtain ⟨h1, h2, h3, h4, h5, h6, h7, h8⟩ := j
        dsimp only at hc
        subst hc
        fin
      · cases h
  | lock =>
    simp only [JniAsync.step] at h
    split at h
    · rename_i hc
      cases h
      obtain ⟨h1, h2, h3, h4, h5, h6, h7, h8⟩ := j
      rw [hc.1] at h2 h4 h5 h7
      refine ⟨h1, ?_, h3, by simpa using h4, h5, token_congr h6 rfl rfl (by rw [hc.1]; rfl) rfl rfl, fun e => (nomatch h7 e), fun ho => ?_⟩
      · dsimp only [Holder.refs] at h2 ⊢; omega
      · exact kept_mono (h8 ho) rfl (fun e => .inl e) (fun _ => .inr rfl) (by rw [hc.1]; rfl) rfl
    · cases h
  | endWake =>
    simp only [JniAsync.step] at h
    split at h
    · rename_i hc
      cases h
      obtain ⟨h1, h2, h3, h4, h5, h6, h7, h8⟩ := j
      rw [decr_eq (by omega)]
      refine ⟨h1, ?_, h3, h4, h5, token_congr h6 rfl rfl rfl rfl rfl, h7, fun ho => ?_⟩
      · dsimp only; omega
      · exact kept_mono (h8 ho) rfl (fun e => .inl e) id rfl rfl
    · cases h

theorem Reach.inv {inline : Bool} {s : S} (h : Reach inline s) : Inv s := by
  induction h with
  | init => constructor <;> simp [S.Token, S.Kept, Pc.handle, Pc.refs, Pc.locks, Pc.globals, Holder.refs, Holder.globals, Holder.target, Sched.globals, Sched.target]
  | step s s' c _ e ih => exact ih.step e

end Verif.JniAsync
