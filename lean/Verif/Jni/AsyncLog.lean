import Verif.Jni.AsyncLemmas
/-
What the log of `Jni/Async.lean` says in all states.
-/
namespace Verif.JniAsync

/-- The results the future gave. -/
def results (l : List Ev) : List Res := l.filterMap fun e => match e with
  | .result r => some r
  | _ => none

/-- The future is not polled after it gave a result. -/
def Order (l : List Ev) : Prop := ∀ pre post r, l = pre ++ Ev.result r :: post → Ev.polled ∉ post

/-- How the code ends the call. -/
def outOf : Res → Out
  | .ok (some v) => .returned (some v)
  | .ok none => .npe
  | .err e => .threw e
  | .panic => .internal

/-- The results so far, by where the call is. -/
def S.Result (s : S) : Prop :=
  match s.pc with
  | .deliver r => results s.log = [r]
  | .ret .complete | .back .complete | .resumed true => results s.log = [.ok s.value]
  | .ret (.threw o) | .back (.threw o) | .cleanup o | .finished o => ∃ r, results s.log = [r] ∧ outOf r = o
  | _ => results s.log = []

structure Log (s : S) : Prop where
  result : s.Result
  order : Order s.log
  freed : s.log.count .freed + s.pc.handle = 1
  dropped : s.log.count .dropped = if s.strong = 0 then 1 else 0
  resumes : ∀ n, s.log.count (.resume n) ≤ 1
  later : ∀ n, s.cur < n → s.log.count (.resume n) = 0
  now : s.cont ≠ .resumed → s.log.count (.resume s.cur) = 0

theorem results_append (l m : List Ev) : results (l ++ m) = results l ++ results m := List.filterMap_append ..

theorem order_snoc {l : List Ev} (h : Order l) {e : Ev} (he : e ≠ .polled ∨ results l = []) : Order (l ++ [e]) := by
  intro pre post r hl hm
  rcases List.eq_nil_or_concat post with rfl | ⟨post', e', rfl⟩
  · cases hm
  · rw [List.concat_eq_append] at hl hm
    have hl' : l ++ [e] = (pre ++ Ev.result r :: post') ++ [e'] := by rw [hl]; simp
    obtain ⟨h1, h2⟩ := List.append_inj' hl' rfl
    have h2 : e = e' := by simpa using h2
    subst h2
    rcases List.mem_append.1 hm with hm | hm
    · exact h pre post' r h1 hm
    · rw [List.mem_singleton] at hm
      rcases he with he | he
      · exact he hm.symm
      · rw [h1, results_append] at he
        simp [results] at he

theorem count_resume_add {l : List Ev} {m : Nat} (h : l.count (.resume m) = 0) (hr : ∀ n, l.count (.resume n) ≤ 1) :
    ∀ n, (l ++ [Ev.resume m]).count (.resume n) ≤ 1 := by
  intro n
  rw [List.count_append, List.count_singleton]
  by_cases e : m = n
  · subst e; simp [h]
  · have := hr n
    simp [e, this]

theorem count_resume_later {l : List Ev} {m : Nat} (hr : ∀ n, m < n → l.count (.resume n) = 0) :
    ∀ n, m < n → (l ++ [Ev.resume m]).count (.resume n) = 0 := by
  intro n hn
  rw [List.count_append, hr n hn]
  have : m ≠ n := by omega
  simp [this]

/-- Dropping an `Arc`: nothing else changes. -/
theorem Log.decr {s : S} (g : Log s) (h0 : s.strong ≠ 0) : Log s.decr := by
  rw [decr_eq h0]
  by_cases h1 : s.strong = 1
  · simp only [h1, if_true]
    refine ⟨?_, ?_, ?_, ?_, ?_, ?_, ?_⟩
    · have := g.result
      unfold S.Result at this ⊢
      simpa [results_append, results] using this
    · exact order_snoc g.order (.inl (by simp))
    · simpa [List.count_append] using g.freed
    · have := g.dropped
      simp only [h1] at this
      have this : s.log.count .dropped = 0 := this
      simp [List.count_append, this]
    · intro n; simpa [List.count_append] using g.resumes n
    · intro n hn; simpa [List.count_append] using g.later n hn
    · intro hc; simpa [List.count_append] using g.now hc
  · simp only [h1, if_false]
    refine ⟨g.result, g.order, g.freed, ?_, g.resumes, g.later, g.now⟩
    have := g.dropped
    rw [if_neg h0] at this
    rw [this, if_neg]
    dsimp only
    omega

/-- Only things the log does not speak of change. -/
theorem Log.same {s s' : S} (g : Log s) (h1 : s'.log = s.log) (h2 : s'.pc = s.pc) (h3 : s'.cur = s.cur)
    (h4 : s'.cont = s.cont) (h5 : s'.value = s.value) (h6 : s'.strong = 0 ↔ s.strong = 0) : Log s' := by
  refine ⟨?_, ?_, ?_, ?_, ?_, ?_, ?_⟩
  · have := g.result
    unfold S.Result at this ⊢
    rw [h1, h2, h5]; exact this
  · rw [h1]; exact g.order
  · rw [h1, h2]; exact g.freed
  · rw [h1, g.dropped]; simp only [h6]
  · rw [h1]; exact g.resumes
  · rw [h1, h3]; exact g.later
  · rw [h1, h3, h4]; exact g.now

/-- The call goes on, without an event. -/
theorem Log.goto {s : S} (g : Log s) {pc : Pc} {v : Option Nat} (h : ({ s with pc := pc, value := v } : S).Result)
    (hh : pc.handle = s.pc.handle) : Log { s with pc := pc, value := v } :=
  ⟨h, g.order, by rw [← g.freed]; dsimp only; rw [hh], g.dropped, g.resumes, g.later, g.now⟩

theorem Log.driver {s s' : S} (g : Log s) (j : Inv s) (h : s.driver = some s') : Log s' := by
  have hst := j.strong
  cases hp : s.pc <;> simp only [S.driver, hp] at h <;> simp only [hp, Pc.handle, Pc.refs] at hst
  case start =>
    cases h
    unfold S.incr
    rw [if_neg (by omega)]
    have hr := g.result
    unfold S.Result at hr
    simp only [hp] at hr
    refine ⟨hr, g.order, ?_, ?_, g.resumes, ?_, ?_⟩
    · have := g.freed; rw [hp] at this; exact this
    · have := g.dropped; rw [if_neg (by omega)] at this; dsimp only; rw [this, if_neg (by omega)]
    · intro n hn; exact g.later n (by dsimp only at hn; omega)
    · intro _; exact g.later _ (Nat.lt_succ_self _)
  case check =>
    split at h
    · cases h
      have hr := g.result
      unfold S.Result at hr
      simp only [hp] at hr
      exact (g.goto (pc := .lockFuture) (v := s.value) hr (by rw [hp]; rfl))
    · cases h
  case lockFuture =>
    split at h
    · cases h
    · cases h
      have hr := g.result
      unfold S.Result at hr
      simp only [hp] at hr
      unfold S.incr
      rw [if_neg (by omega)]
      refine ⟨?_, order_snoc g.order (.inr hr), ?_, ?_, ?_, ?_, ?_⟩
      · show results (s.log ++ [_]) = []
        rw [results_append, hr]; rfl
      · have := g.freed; rw [hp] at this
        show List.count _ (s.log ++ [_]) + _ = 1
        rw [List.count_append]; simpa [Pc.handle] using this
      · have := g.dropped; rw [if_neg (by omega)] at this
        show List.count _ (s.log ++ [_]) = if s.strong + 1 = 0 then 1 else 0
        rw [List.count_append, this]; simp
      · intro n; have := g.resumes n
        show List.count _ (s.log ++ [_]) ≤ 1
        rw [List.count_append]; simpa using this
      · intro n hn; have := g.later n hn
        show List.count _ (s.log ++ [_]) = 0
        rw [List.count_append, this]; simp
      · intro hc; have := g.now hc
        show List.count (.resume s.cur) (s.log ++ [_]) = 0
        rw [List.count_append, this]; simp
  case polling => cases h
  case deliver r =>
    have hr := g.result
    unfold S.Result at hr
    simp only [hp] at hr
    cases r <;> cases h
    · exact g.goto hr (by rw [hp]; rfl)
    · exact g.goto (v := s.value) ⟨_, hr, rfl⟩ (by rw [hp]; rfl)
    · exact g.goto (v := s.value) ⟨_, hr, rfl⟩ (by rw [hp]; rfl)
  case store =>
    split at h
    · cases h
      have hr := g.result
      unfold S.Result at hr
      simp only [hp] at hr
      exact (g.goto (pc := .stored) (v := s.value) hr (by rw [hp]; rfl)).same rfl rfl rfl rfl rfl Iff.rfl
    · cases h
  case stored =>
    have hr := g.result
    unfold S.Result at hr
    simp only [hp] at hr
    have ht := j.token
    unfold S.Token at ht
    simp only [hp] at ht
    split at h
    · cases h
      exact (g.goto (pc := .storeUnlock) (v := s.value) hr (by rw [hp]; rfl)).same rfl rfl rfl rfl rfl Iff.rfl
    · rename_i e; rw [e] at ht; simp [Sched.target] at ht
    · cases h
      exact (g.goto (pc := .storeInvoke) (v := s.value) hr (by rw [hp]; rfl)).same rfl rfl rfl rfl rfl Iff.rfl
  case storeInvoke =>
    cases h
    have hr := g.result
    unfold S.Result at hr
    simp only [hp] at hr
    have ht := j.token
    unfold S.Token at ht
    simp only [hp] at ht
    rw [resume_cur (by rw [ht.2.2]; simp)]
    have hn := g.now (by rw [ht.2.2]; simp)
    refine ⟨?_, order_snoc g.order (.inl (by simp)), ?_, ?_, count_resume_add hn g.resumes, count_resume_later g.later, ?_⟩
    · show results (s.log ++ [_]) = []
      rw [results_append, hr]; rfl
    · have := g.freed; rw [hp] at this
      show List.count _ (s.log ++ [_]) + _ = 1
      rw [List.count_append]; simpa [Pc.handle] using this
    · have := g.dropped
      show List.count _ (s.log ++ [_]) = if s.strong = 0 then 1 else 0
      rw [List.count_append, this]; simp
    · intro hc; exact absurd rfl hc
  case storeDel =>
    cases h
    have hr := g.result
    unfold S.Result at hr
    simp only [hp] at hr
    have := g.goto (pc := .storeUnlock) (v := s.value) hr (by rw [hp]; rfl)
    unfold S.delRef
    split
    · exact this.same rfl rfl rfl rfl rfl Iff.rfl
    · exact this.same rfl rfl rfl rfl rfl Iff.rfl
  case storeUnlock =>
    cases h
    have hr := g.result
    unfold S.Result at hr
    simp only [hp] at hr
    exact (g.goto (pc := .ret .pending) (v := s.value) hr (by rw [hp]; rfl)).same rfl rfl rfl rfl rfl Iff.rfl
  case ret c =>
    rw [← hp] at h
    cases h
    have g1 : Log ({ s with futLock := false } : S) := g.same rfl rfl rfl rfl rfl Iff.rfl
    have h0 : ({ s with futLock := false } : S).strong ≠ 0 := by dsimp only; omega
    have g2 := g1.decr h0
    have h1 : ({ s with futLock := false } : S).decr.strong ≠ 0 := by rw [decr_eq h0]; dsimp only; omega
    have g3 := g2.decr h1
    have hpc : ({ s with futLock := false } : S).decr.decr.pc = .ret c := by
      rw [decr_eq h1, decr_eq h0]; exact hp
    have g4 := g3.goto (pc := .back c) (v := ({ s with futLock := false } : S).decr.decr.value) ?_ (by rw [hpc]; rfl)
    · exact g4
    · have hr := g3.result
      unfold S.Result at hr ⊢
      rw [hpc] at hr
      cases c <;> exact hr
  case back c =>
    have hr := g.result
    unfold S.Result at hr
    simp only [hp] at hr
    have ht := j.token
    unfold S.Token at ht
    simp only [hp] at ht
    cases c with
    | pending =>
      dsimp only at h
      split at h
      · rename_i e
        cases h
        have g1 := g.goto (pc := .suspended) (v := s.value) hr (by rw [hp]; rfl)
        exact ⟨g1.result, g1.order, g1.freed, g1.dropped, g1.resumes, g1.later, fun _ => g.now (by rw [e]; simp)⟩
      · cases h; exact g.goto (pc := .resumed false) (v := s.value) hr (by rw [hp]; rfl)
      · cases h; exact g.same rfl hp.symm rfl rfl rfl Iff.rfl
    | complete =>
      dsimp only at h
      split at h
      · cases h
        have g1 := g.goto (pc := .resumed true) (v := s.value) hr (by rw [hp]; rfl)
        exact ⟨g1.result, g1.order, g1.freed, g1.dropped, g1.resumes, g1.later, fun hc => absurd rfl hc⟩
      · rename_i e
        exact absurd ht.2.2 e
    | threw o => cases h; exact g.goto (pc := .cleanup o) (v := s.value) hr (by rw [hp]; rfl)
  case suspended => cases h
  case resumed b =>
    have hr := g.result
    unfold S.Result at hr
    simp only [hp] at hr
    cases b <;> cases h
    · exact g.goto (pc := .start) (v := s.value) hr (by rw [hp]; rfl)
    · refine g.goto (v := s.value) ⟨_, hr, ?_⟩ (by rw [hp]; rfl)
      cases s.value <;> rfl
  case cleanup o =>
    cases h
    have hr := g.result
    unfold S.Result at hr
    simp only [hp] at hr
    have h0 : (s.add .freed).strong ≠ 0 := by show s.strong ≠ 0; omega
    have hf := g.freed
    rw [hp] at hf
    simp only [Pc.handle] at hf
    have hf : s.log.count .freed = 0 := by omega
    rw [decr_eq h0]
    have hd := g.dropped
    rw [if_neg (by omega)] at hd
    have hlog : ∀ e, e ≠ Ev.freed → e ≠ Ev.dropped →
        (if (s.add .freed).strong = 1 then (s.add .freed).log ++ [Ev.dropped] else (s.add .freed).log).count e = s.log.count e := by
      intro e h1 h2
      have h1 : Ev.freed ≠ e := fun h => h1 h.symm
      have h2 : Ev.dropped ≠ e := fun h => h2 h.symm
      split <;> simp [S.add, List.count_append, h1, h2]
    refine ⟨?_, ?_, ?_, ?_, ?_, ?_, ?_⟩
    · obtain ⟨r, h1, h2⟩ := hr
      refine ⟨r, ?_, h2⟩
      dsimp only
      split <;> simp [S.add, results_append, h1] <;> rfl
    · dsimp only
      split
      · exact order_snoc (order_snoc g.order (.inl (by simp))) (.inl (by simp))
      · exact order_snoc g.order (.inl (by simp))
    · dsimp only
      split <;> simp [S.add, List.count_append, hf, Pc.handle]
    · dsimp only
      split
      · rename_i e; have e : s.strong = 1 := e; simp [S.add, List.count_append, hd, e]
      · rename_i e
        have : s.strong - 1 ≠ 0 := by have e : s.strong ≠ 1 := e; omega
        simp [S.add, List.count_append, hd, this]
    · intro n; dsimp only; rw [hlog _ (by simp) (by simp)]; exact g.resumes n
    · intro n hn; dsimp only; rw [hlog _ (by simp) (by simp)]; exact g.later n hn
    · intro hc; dsimp only; rw [hlog _ (by simp) (by simp)]; exact g.now hc
  case finished o => cases h

theorem Log.resume {s : S} (g : Log s) (hc : s.cont ≠ .resumed) (hs : s.cont = .suspended → s.pc = .suspended) :
    Log (s.resume s.cur) := by
  rw [resume_cur hc]
  have hn := g.now hc
  have hr := g.result
  refine ⟨?_, order_snoc g.order (.inl (by simp)), ?_, ?_, count_resume_add hn g.resumes, count_resume_later g.later, ?_⟩
  · unfold S.Result at hr ⊢
    have e : results (s.log ++ [Ev.resume s.cur]) = results s.log := by rw [results_append]; simp [results]
    dsimp only [S.add]
    rw [e]
    by_cases h : s.cont = .suspended
    · rw [if_pos h]; rw [hs h] at hr; exact hr
    · rw [if_neg h]; exact hr
  · have := g.freed
    show List.count _ (s.log ++ [_]) + _ = 1
    rw [List.count_append]
    dsimp only
    split
    · rename_i h; rw [hs h] at this; simpa [Pc.handle] using this
    · simpa using this
  · have := g.dropped
    show List.count _ (s.log ++ [_]) = if s.strong = 0 then 1 else 0
    rw [List.count_append, this]; simp
  · intro h; exact absurd rfl h

theorem Log.wakeStep {inline : Bool} {s s' : S} (g : Log s) (j : Inv s) (h : s.wakeStep inline = some s') : Log s' := by
  cases hh : s.holder <;> simp only [S.wakeStep, hh] at h
  case free => cases h
  case driver => cases h
  case locked => split at h <;> cases h <;> exact g.same rfl rfl rfl rfl rfl Iff.rfl
  case invoke n =>
    obtain ⟨rfl, hp, _⟩ := j.target hh
    have g1 : Log (s.resume s.cur) := by
      refine g.resume ?_ ?_
      · rcases hp with ⟨_, e⟩ | ⟨_, e⟩ <;> rw [e] <;> simp
      · intro e
        rcases hp with ⟨h', _⟩ | ⟨_, e'⟩
        · exact h'
        · rw [e] at e'; cases e'
    split at h <;> cases h <;> exact g1.same rfl rfl rfl rfl rfl Iff.rfl
  case inside =>
    split at h
    · cases h
    · cases h; exact g.same rfl rfl rfl rfl rfl Iff.rfl
  case del =>
    cases h
    unfold S.delRef
    split <;> exact g.same rfl rfl rfl rfl rfl Iff.rfl
  case unlock => cases h; exact g.same rfl rfl rfl rfl rfl Iff.rfl

theorem Log.step {inline : Bool} {s s' : S} {c : Cmd} (g : Log s) (j : Inv s) (h : step inline s c = some s') : Log s' := by
  have hst := j.strong
  cases c with
  | driver => exact g.driver j h
  | wakeStep => exact g.wakeStep j h
  | clone =>
    simp only [JniAsync.step] at h
    split at h
    · rename_i hc
      cases h
      have h0 : s.strong ≠ 0 := by
        rcases hc with hc | hc
        · rw [hc] at hst; simp only [Pc.handle] at hst; omega
        · omega
      unfold S.incr
      rw [if_neg h0]
      exact g.same rfl rfl rfl rfl rfl (by simp [h0])
    · cases h
  | drop =>
    simp only [JniAsync.step] at h
    split at h
    · cases h; exact (g.decr (by omega)).same rfl rfl rfl rfl rfl Iff.rfl
    · cases h
  | wake =>
    simp only [JniAsync.step] at h
    split at h
    · cases h; exact g.same rfl rfl rfl rfl rfl Iff.rfl
    · cases h
  | answer r =>
    cases r with
    | none =>
      simp only [JniAsync.step] at h
      split at h
      · rename_i hc
        cases h
        have hr := g.result
        unfold S.Result at hr
        simp only [hc] at hr
        exact (g.goto (pc := .store) (v := s.value) hr (by rw [hc]; rfl)).same rfl rfl rfl rfl rfl Iff.rfl
      · cases h
    | some r =>
      simp only [JniAsync.step] at h
      split at h
      · rename_i hc
        cases h
        have hr := g.result
        unfold S.Result at hr
        simp only [hc] at hr
        refine ⟨?_, order_snoc g.order (.inl (by simp)), ?_, ?_, ?_, ?_, ?_⟩
        · show results (s.log ++ [_]) = [r]
          rw [results_append, hr]; rfl
        · have := g.freed; rw [hc] at this
          show List.count _ (s.log ++ [_]) + _ = 1
          rw [List.count_append]; simpa [Pc.handle] using this
        · have := g.dropped
          show List.count _ (s.log ++ [_]) = if s.strong = 0 then 1 else 0
          rw [List.count_append, this]; simp
        · intro n; have := g.resumes n
          show List.count _ (s.log ++ [_]) ≤ 1
          rw [List.count_append]; simpa using this
        · intro n hn; have := g.later n hn
          show List.count _ (s.log ++ [_]) = 0
          rw [List.count_append, this]; simp
        · intro h'; have := g.now h'
          show List.count (.resume s.cur) (s.log ++ [_]) = 0
          rw [List.count_append, this]; simp
      · cases h
  | lock =>
    simp only [JniAsync.step] at h
    split at h
    · cases h; exact g.same rfl rfl rfl rfl rfl Iff.rfl
    · cases h
  | endWake =>
    simp only [JniAsync.step] at h
    split at h
    · cases h; exact (g.decr (by omega)).same rfl rfl rfl rfl rfl Iff.rfl
    · cases h

theorem Reach.log {inline : Bool} {s : S} (h : Reach inline s) : Log s := by
  induction h with
  | init =>
    refine ⟨rfl, ?_, rfl, rfl, by simp, by simp, by simp⟩
    intro pre post r h
    simp at h
  | step s s' c hs e ih => exact ih.step hs.inv e

end Verif.JniAsync
