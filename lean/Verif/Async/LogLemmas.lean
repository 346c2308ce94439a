import Verif.Async.Lemmas
/-
What the log of a Rust future can look like.
-/
namespace Verif.Async
open Verif

variable {R : Type}

/-- An induction principle: a property `G` of the object and a property `Q` of each running call
hold in every reachable state. In `hrun`, the other calls do not hold the future mutex when the
stepping call does, or when it drops the last reference. -/
theorem Reachable.induct (G : Shared R → Prop) (Q : Shared R → Pc → Prop) (h0 : G {})
    (hstart : ∀ s s' op, Inv s → G s.sh → (∀ pc ∈ s.acts, Q s.sh pc) → start s op = some s' →
      G s'.sh ∧ ∀ pc ∈ s'.acts, Q s'.sh pc)
    (hrun : ∀ (sh sh' : Shared R) pc pc' o, 0 < sh.count → pc.arcs ≤ sh.count →
      (pc.holds = 1 → sh.locked = true) → G sh → Q sh pc → Async.step o sh pc = some (pc', sh') →
      G sh' ∧ (∀ q ∈ pc', Q sh' q) ∧ ∀ q, (pc.holds = 1 → q.holds = 0) →
        (pc = .dropArc → sh.count = 1 → q.holds = 0) → Q sh q → Q sh' q)
    {s : St R} (h : Reachable s) : G s.sh ∧ ∀ pc ∈ s.acts, Q s.sh pc := by
  have key : ∀ s', Steps init s' → G s'.sh ∧ ∀ pc ∈ s'.acts, Q s'.sh pc := by
    intro s' hs
    generalize hi : (init : St R) = i at hs
    induction hs with
    | refl => subst hi; exact ⟨h0, by simp [init]⟩
    | tail a b hab hst ih =>
      subst hi
      have hinv := Reachable.inv hab
      cases hst with
      | start op h hb => exact hstart _ _ op hinv ih.1 ih.2 h
      | run h =>
        cases h with
        | mk l₁ l₂ pc o sh sh' pc' h hb =>
          obtain ⟨hc, ha, hl⟩ := hinv.step_hyps
          have hQ : Q sh pc := ih.2 pc (by simp)
          obtain ⟨r1, r2, r3⟩ := hrun sh sh' pc pc' o hc ha hl ih.1 hQ h
          refine ⟨r1, fun q hq => ?_⟩
          have other : ∀ q, q ∈ l₁ ∨ q ∈ l₂ → Q sh' q := by
            intro q hq
            refine r3 q (fun hp => ?_) (fun hp h1 => ?_) (ih.2 q ?_)
            · have h1 := hinv.lock
              simp only [total_append, total_cons] at h1
              have h2 : sh.locked.toNat ≤ 1 := by cases sh.locked <;> simp
              rcases hq with hq | hq
              · have := le_total Pc.holds hq; omega
              · have := le_total Pc.holds hq; omega
            · have h2 := hinv.count
              simp only [total_append, total_cons, h1] at h2
              have h3 : q.holds = 0 ∨ 1 ≤ q.arcs := by
                cases q <;> simp [Pc.holds, Pc.arcs]
              have h4 : pc.arcs = 1 := by rw [hp]; rfl
              rcases hq with hq | hq
              · have := le_total Pc.arcs hq; omega
              · have := le_total Pc.arcs hq; omega
            · rcases hq with hq | hq <;> simp [hq]
          simp only [List.mem_append, Option.mem_toList] at hq
          rcases hq with (hq | hq) | hq
          · exact other q (.inl hq)
          · exact r2 q hq
          · exact other q (.inr hq)
  exact key s h

/-! ### Histories -/

/-- `P` relates every event to what came before it. -/
def Hist (P : List (Ev R) → Ev R → Prop) (log : List (Ev R)) : Prop :=
  ∀ pre e post, log = pre ++ e :: post → P pre e

theorem hist_nil (P : List (Ev R) → Ev R → Prop) : Hist P [] := by
  intro pre e post h; simp at h

theorem hist_snoc {P : List (Ev R) → Ev R → Prop} {log : List (Ev R)} {e : Ev R} :
    Hist P (log ++ [e]) ↔ Hist P log ∧ P log e := by
  constructor
  · intro h
    exact ⟨fun pre e' post h' => h pre e' (post ++ [e]) (by simp [h']), h log e [] rfl⟩
  · rintro ⟨h, he⟩ pre e' post h'
    rcases List.eq_nil_or_concat post with rfl | ⟨post', x, rfl⟩
    · have h2 : log ++ [e] = pre ++ [e'] := h'
      obtain ⟨rfl, h3⟩ := List.append_inj' h2 rfl
      simp at h3; subst h3; exact he
    · have h2 : log ++ [e] = (pre ++ e' :: post') ++ [x] := by simp [h']
      obtain ⟨h3, _⟩ := List.append_inj' h2 rfl
      exact h pre e' post' h3

/-- `b` happens after some `a`. -/
def Later (a b : Ev R) (log : List (Ev R)) : Prop := ∃ p q, log = p ++ a :: q ∧ b ∈ q

theorem later_nil (a b : Ev R) : ¬ Later a b [] := by
  rintro ⟨p, q, h, _⟩; simp at h

theorem later_snoc (a b : Ev R) (log : List (Ev R)) (e : Ev R) :
    Later a b (log ++ [e]) ↔ Later a b log ∨ (e = b ∧ a ∈ log) := by
  constructor
  · rintro ⟨p, q, h, hm⟩
    rcases List.eq_nil_or_concat q with rfl | ⟨q', x, rfl⟩
    · simp at hm
    · have h2 : log ++ [e] = (p ++ a :: q') ++ [x] := by simp [h]
      obtain ⟨h3, h4⟩ := List.append_inj' h2 rfl
      simp at h4
      subst h4
      simp only [List.concat_eq_append, List.mem_append, List.mem_singleton] at hm
      rcases hm with hm | hm
      · exact .inl ⟨p, q', h3, hm⟩
      · exact .inr ⟨hm.symm, by simp [h3]⟩
  · rintro (⟨p, q, rfl, hm⟩ | ⟨rfl, hm⟩)
    · exact ⟨p, q ++ [e], by simp, by simp [hm]⟩
    · obtain ⟨p, q, rfl⟩ := List.append_of_mem hm
      exact ⟨p, q ++ [e], by simp, by simp⟩

/-- The poll with continuation `cb` started after a cancellation. -/
abbrev StartedAfterCancel (cb : Nat) (log : List (Ev R)) : Prop :=
  Later .cancelled (.started cb) log

theorem afterCancel_snoc (cb : Nat) (log : List (Ev R)) (e : Ev R) :
    StartedAfterCancel cb (log ++ [e]) ↔
      StartedAfterCancel cb log ∨ (e = .started cb ∧ Ev.cancelled ∈ log) :=
  later_snoc _ _ _ _

/-- How often the user's future was dropped. -/
def drops : List (Ev R) → Nat
  | [] => 0
  | .innerDropped :: l => 1 + drops l
  | _ :: l => drops l

/-- How often the allocation was released. -/
def releases : List (Ev R) → Nat
  | [] => 0
  | .released :: l => 1 + releases l
  | _ :: l => releases l

@[simp] theorem drops_append (a b : List (Ev R)) : drops (a ++ b) = drops a + drops b := by
  induction a with
  | nil => simp [drops]
  | cons e a ih => cases e <;> simp [drops, ih, Nat.add_assoc]

@[simp] theorem releases_append (a b : List (Ev R)) :
    releases (a ++ b) = releases a + releases b := by
  induction a with
  | nil => simp [releases]
  | cons e a ih => cases e <;> simp [releases, ih, Nat.add_assoc]

theorem drops_pos {log : List (Ev R)} : 0 < drops log ↔ Ev.innerDropped ∈ log := by
  induction log with
  | nil => simp [drops]
  | cons e l ih => cases e <;> simp [drops, ih] <;> omega

theorem releases_pos {log : List (Ev R)} : 0 < releases log ↔ Ev.released ∈ log := by
  induction log with
  | nil => simp [releases]
  | cons e l ih => cases e <;> simp [releases, ih] <;> omega

/-- Nothing has finished, taken or thrown away the user's future. -/
def Fresh (log : List (Ev R)) : Prop :=
  (∀ r, Ev.innerReady r ∉ log) ∧ (∀ o, Ev.completed o ∉ log) ∧ Ev.freed ∉ log

/-- A result was produced and nobody took it or threw it away. -/
def Unclaimed (r : R) (log : List (Ev R)) : Prop :=
  Ev.innerReady r ∈ log ∧ (∀ o, Ev.completed o ∉ log) ∧ Ev.freed ∉ log

/-- The future has nothing more to do: it finished, was completed, or was cancelled. -/
def Final (log : List (Ev R)) : Prop :=
  (∃ r, Ev.innerReady r ∈ log) ∨ (∃ o, Ev.completed o ∈ log) ∨ Ev.cancelled ∈ log

/-- What must have happened before each event. -/
def Allowed (pre : List (Ev R)) : Ev R → Prop
  | .started cb => Ev.started cb ∉ pre
  | .innerPoll cb => Fresh pre ∧ Ev.innerDropped ∉ pre ∧ ¬ StartedAfterCancel cb pre ∧
      Ev.started cb ∈ pre
  | .innerReady _ => Fresh pre
  | .completed out => ∀ r, out = some r ↔ Unclaimed r pre
  | .invoked cb .wake => ¬ StartedAfterCancel cb pre ∧ Ev.started cb ∈ pre
  | .invoked _ .ready => Final pre
  | .freed => Ev.cancelled ∈ pre
  | _ => True

/-- Facts about the object. -/
structure Facts (sh : Shared R) : Prop where
  started : ∀ cb, Ev.started cb ∈ sh.log ↔ cb < sh.nextCb
  cancelled : Ev.cancelled ∈ sh.log ↔ sh.sched = .cancelled
  drops : drops sh.log = (!sh.fut).toNat
  releases : releases sh.log = (sh.count == 0).toNat
  fresh : sh.fut = true → Fresh sh.log ∧ sh.result = none
  result : 0 < sh.count → ∀ r, sh.result = some r ↔ Unclaimed r sh.log
  gone : 0 < sh.count → sh.fut = false →
    (∃ r, Ev.innerReady r ∈ sh.log) ∨ (∃ o, Ev.completed o ∈ sh.log) ∨ Ev.freed ∈ sh.log
  freed : Ev.freed ∈ sh.log → Ev.cancelled ∈ sh.log
  hist : Hist Allowed sh.log
  set : ∀ cb, sh.sched = .set cb → ¬ StartedAfterCancel cb sh.log ∧ cb < sh.nextCb

/-- Facts about a running call. -/
def CallFacts (sh : Shared R) : Pc → Prop
  | .pollStart cb => cb < sh.nextCb
  | .pollLock cb => ¬ StartedAfterCancel cb sh.log ∧ cb < sh.nextCb
  | .pollBody cb => ¬ StartedAfterCancel cb sh.log ∧ cb < sh.nextCb
  | .inFuture cb => ¬ StartedAfterCancel cb sh.log ∧ cb < sh.nextCb ∧ sh.fut = true
  | .pollDropWaker cb ready =>
    ¬ StartedAfterCancel cb sh.log ∧ cb < sh.nextCb ∧ (ready = true → Final sh.log)
  | .pollUnlock cb ready =>
    ¬ StartedAfterCancel cb sh.log ∧ cb < sh.nextCb ∧ (ready = true → Final sh.log)
  | .store cb => ¬ StartedAfterCancel cb sh.log ∧ cb < sh.nextCb
  | .invoke cb p k =>
    (p = .wake → ¬ StartedAfterCancel cb sh.log ∧ cb < sh.nextCb) ∧ (p = .ready → Final sh.log) ∧
      (k = .free → Ev.cancelled ∈ sh.log)
  | .freeLock => Ev.cancelled ∈ sh.log
  | .freeBody => Ev.cancelled ∈ sh.log
  | _ => True

/-- What a step leaves as it was for the other calls. -/
theorem CallFacts.mono {sh sh' : Shared R} {q : Pc} (h : CallFacts sh q)
    (h1 : ∀ cb, cb < sh.nextCb → StartedAfterCancel cb sh'.log → StartedAfterCancel cb sh.log)
    (h2 : sh.nextCb ≤ sh'.nextCb) (h3 : ∀ e ∈ sh.log, e ∈ sh'.log)
    (h4 : q.holds = 1 → sh.fut = true → sh'.fut = true) : CallFacts sh' q := by
  have hF : Final sh.log → Final sh'.log := by
    rintro (⟨r, h⟩ | ⟨o, h⟩ | h)
    · exact .inl ⟨r, h3 _ h⟩
    · exact .inr (.inl ⟨o, h3 _ h⟩)
    · exact .inr (.inr (h3 _ h))
  cases q <;> simp only [CallFacts] at h ⊢
  case pollStart cb => omega
  case pollLock cb => exact ⟨fun x => h.1 (h1 _ h.2 x), by omega⟩
  case pollBody cb => exact ⟨fun x => h.1 (h1 _ h.2 x), by omega⟩
  case inFuture cb => exact ⟨fun x => h.1 (h1 _ h.2.1 x), by omega, h4 rfl h.2.2⟩
  case pollDropWaker cb r => exact ⟨fun x => h.1 (h1 _ h.2.1 x), by omega, fun x => hF (h.2.2 x)⟩
  case pollUnlock cb r => exact ⟨fun x => h.1 (h1 _ h.2.1 x), by omega, fun x => hF (h.2.2 x)⟩
  case store cb => exact ⟨fun x => h.1 (h1 _ h.2 x), by omega⟩
  case invoke cb p k =>
    exact ⟨fun x => ⟨fun y => (h.1 x).1 (h1 _ (h.1 x).2 y), by have := (h.1 x).2; omega⟩,
      fun x => hF (h.2.1 x), fun x => h3 _ (h.2.2 x)⟩
  case freeLock => exact h3 _ h
  case freeBody => exact h3 _ h

theorem facts_init : Facts ({} : Shared R) where
  started := by simp
  cancelled := by simp
  drops := rfl
  releases := rfl
  fresh := by simp [Fresh]
  result := by simp [Unclaimed]
  gone := by simp
  freed := by simp
  hist := hist_nil _
  set := by simp

theorem facts_start (s s' : St R) (op : Op) (hi : Inv s) (hf : Facts s.sh)
    (hc : ∀ pc ∈ s.acts, CallFacts s.sh pc) (h : start s op = some s') :
    Facts s'.sh ∧ ∀ pc ∈ s'.acts, CallFacts s'.sh pc := by
  have hh : s.sh.handle = true → 0 < s.sh.count := by
    intro hh; rw [hi.count, hh]; simp; omega
  have hw : 0 < s.sh.wakers ∨ s.acts.any Pc.inside = true → 0 < s.sh.count := by
    rw [hi.count]
    rintro (h | h)
    · omega
    · have := inside_pos h; omega
  obtain ⟨f1, f2, f3, f4, f5, f6, f7, f8, f9, f10⟩ := hf
  obtain ⟨sh, acts⟩ := s
  dsimp only at *
  cases op <;> simp only [start] at h <;> split at h <;>
    simp only [Option.some.injEq, reduceCtorEq] at h <;> subst h
  case poll.isTrue h1 =>
    have hc0 := hh h1
    simp only [Shared.touch_eq hc0] at *
    have hrel : releases sh.log = 0 := by
      rw [f4]; have : (sh.count == 0) = false := by simp; omega
      rw [this]; rfl
    refine ⟨⟨?_, ?_, ?_, ?_, ?_, ?_, ?_, ?_, ?_, ?_⟩, ?_⟩
    · intro cb; simp [Shared.add, f1 cb]; omega
    · simpa [Shared.add] using f2
    · simpa [Shared.add, drops] using f3
    · simp [Shared.add, releases, hrel]
    · simpa [Shared.add, Fresh] using f5
    · have := f6 hc0
      simpa [Shared.add, Unclaimed] using this
    · have := f7 hc0
      simpa [Shared.add] using this
    · simpa [Shared.add] using f8
    · simp only [Shared.add, hist_snoc, Allowed]
      exact ⟨f9, fun x => by have := (f1 _).1 x; omega⟩
    · intro cb hs
      obtain ⟨a, b⟩ := f10 cb hs
      simp only [Shared.add, afterCancel_snoc, Ev.started.injEq]
      exact ⟨fun x => x.elim a fun y => by omega, by omega⟩
    · intro pc hpc
      rw [List.mem_append] at hpc
      rcases hpc with hpc | hpc
      · refine (hc pc hpc).mono ?_ (by simp [Shared.add]) (by simp [Shared.add]; intro e he; exact .inl he)
          (fun _ x => x)
        intro cb hcb x
        simp only [Shared.add, afterCancel_snoc, Ev.started.injEq] at x
        exact x.elim id fun y => by omega
      · simp at hpc; subst hpc; simp [CallFacts, Shared.add]
  case cancel.isTrue h1 =>
    have hc0 := hh h1
    simp only [Shared.touch_eq hc0] at *
    refine ⟨⟨f1, f2, f3, ?_, f5, fun _ => f6 hc0, fun _ => f7 hc0, f8, f9, f10⟩, ?_⟩
    · rw [f4]; simp; omega
    · intro pc hpc
      rw [List.mem_append] at hpc
      rcases hpc with hpc | hpc
      · exact (hc pc hpc).mono (fun _ _ x => x) (Nat.le_refl _) (fun _ x => x) (fun _ x => x)
      · simp at hpc; subst hpc; trivial
  case complete.isTrue h1 =>
    have hc0 := hh h1
    simp only [Shared.touch_eq hc0] at *
    refine ⟨⟨f1, f2, f3, ?_, f5, fun _ => f6 hc0, fun _ => f7 hc0, f8, f9, f10⟩, ?_⟩
    · rw [f4]; simp; omega
    · intro pc hpc
      rw [List.mem_append] at hpc
      rcases hpc with hpc | hpc
      · exact (hc pc hpc).mono (fun _ _ x => x) (Nat.le_refl _) (fun _ x => x) (fun _ x => x)
      · simp at hpc; subst hpc; trivial
  case free.isTrue h1 =>
    have hc0 := hh h1
    simp only [Shared.touch_eq hc0] at *
    refine ⟨⟨f1, f2, f3, f4, f5, f6, f7, f8, f9, f10⟩, ?_⟩
    intro pc hpc
    rw [List.mem_append] at hpc
    rcases hpc with hpc | hpc
    · exact (hc pc hpc).mono (fun _ _ x => x) (Nat.le_refl _) (fun _ x => x) (fun _ x => x)
    · simp at hpc; subst hpc; trivial
  case wakerClone.isTrue h1 =>
    have hc0 := hw h1
    simp only [Shared.touch_eq hc0] at *
    refine ⟨⟨f1, f2, f3, ?_, f5, fun _ => f6 hc0, fun _ => f7 hc0, f8, f9, f10⟩, ?_⟩
    · rw [f4]; simp; omega
    · intro pc hpc
      exact (hc pc hpc).mono (fun _ _ x => x) (Nat.le_refl _) (fun _ x => x) (fun _ x => x)
  case wakerDrop.isTrue h1 =>
    refine ⟨⟨f1, f2, f3, f4, f5, f6, f7, f8, f9, f10⟩, ?_⟩
    intro pc hpc
    rw [List.mem_append] at hpc
    rcases hpc with hpc | hpc
    · exact (hc pc hpc).mono (fun _ _ x => x) (Nat.le_refl _) (fun _ x => x) (fun _ x => x)
    · simp at hpc; subst hpc; trivial
  case wakerWake.isTrue h1 =>
    refine ⟨⟨f1, f2, f3, f4, f5, f6, f7, f8, f9, f10⟩, ?_⟩
    intro pc hpc
    rw [List.mem_append] at hpc
    rcases hpc with hpc | hpc
    · exact (hc pc hpc).mono (fun _ _ x => x) (Nat.le_refl _) (fun _ x => x) (fun _ x => x)
    · simp at hpc; subst hpc; trivial
  case wakerWakeByRef.isTrue h1 =>
    refine ⟨⟨f1, f2, f3, f4, f5, f6, f7, f8, f9, f10⟩, ?_⟩
    intro pc hpc
    rw [List.mem_append] at hpc
    rcases hpc with hpc | hpc
    · exact hc pc hpc
    · simp at hpc; subst hpc; trivial

theorem Facts.congr {sh sh' : Shared R} (f : Facts sh) (hc : 0 < sh.count) (hc' : 0 < sh'.count)
    (h1 : sh'.sched = sh.sched) (h2 : sh'.fut = sh.fut) (h3 : sh'.result = sh.result)
    (h4 : sh'.nextCb = sh.nextCb) (h5 : sh'.log = sh.log) : Facts sh' := by
  obtain ⟨f1, f2, f3, f4, f5, f6, f7, f8, f9, f10⟩ := f
  refine ⟨?_, ?_, ?_, ?_, ?_, ?_, ?_, ?_, ?_, ?_⟩ <;> simp only [h1, h2, h3, h4, h5]
  · exact f1
  · exact f2
  · exact f3
  · rw [f4]
    have a : (sh.count == 0) = false := by simp; omega
    have b : (sh'.count == 0) = false := by simp; omega
    rw [a, b]
  · exact f5
  · exact fun _ => f6 hc
  · exact fun _ => f7 hc
  · exact f8
  · exact f9
  · exact f10

/-- Events that say nothing about the life of the future. -/
def Ev.neutral : Ev R → Bool
  | .innerPoll _ => true
  | .invoked _ _ => true
  | .woke => true
  | _ => false

theorem Facts.snoc {sh : Shared R} (f : Facts sh) {e : Ev R} (he : e.neutral = true)
    (ha : Allowed sh.log e) : Facts (sh.add e) := by
  obtain ⟨f1, f2, f3, f4, f5, f6, f7, f8, f9, f10⟩ := f
  have e1 : ∀ cb, e ≠ .started cb := by intro cb h; subst h; simp [Ev.neutral] at he
  have e2 : e ≠ .cancelled := by intro h; subst h; simp [Ev.neutral] at he
  have e3 : ∀ r, e ≠ .innerReady r := by intro cb h; subst h; simp [Ev.neutral] at he
  have e4 : ∀ o, e ≠ .completed o := by intro cb h; subst h; simp [Ev.neutral] at he
  have e5 : e ≠ .freed := by intro h; subst h; simp [Ev.neutral] at he
  have e6 : Async.drops [e] = 0 := by cases e <;> simp [Ev.neutral] at he <;> rfl
  have e7 : Async.releases [e] = 0 := by cases e <;> simp [Ev.neutral] at he <;> rfl
  refine ⟨?_, ?_, ?_, ?_, ?_, ?_, ?_, ?_, ?_, ?_⟩
  · intro cb; simp [Shared.add, f1 cb, (e1 cb).symm]
  · simp [Shared.add, f2, e2.symm]
  · simpa [Shared.add, e6] using f3
  · simpa [Shared.add, e7] using f4
  · simpa [Shared.add, Fresh, fun r => (e3 r).symm, fun r => (e4 r).symm, e5.symm] using f5
  · simpa [Shared.add, Unclaimed, fun r => (e3 r).symm, fun r => (e4 r).symm, e5.symm] using f6
  · simpa [Shared.add, fun r => (e3 r).symm, fun r => (e4 r).symm, e5.symm] using f7
  · simpa [Shared.add, e2.symm, e5.symm] using f8
  · simp only [Shared.add, hist_snoc]; exact ⟨f9, ha⟩
  · intro cb hs
    simp only [Shared.add, afterCancel_snoc, e1, false_and, or_false]
    exact f10 cb hs

/-- Nothing but the log changes for other calls. -/
theorem CallFacts.snoc {sh : Shared R} {q : Pc} (h : CallFacts sh q) {e : Ev R}
    (he : ∀ cb, e ≠ .started cb) : CallFacts (sh.add e) q :=
  h.mono (fun cb _ x => by
    simp only [Shared.add, afterCancel_snoc, he, false_and, or_false] at x; exact x)
    (Nat.le_refl _) (fun x hx => by simp [Shared.add, hx]) (fun _ x => x)

theorem CallFacts.congr {sh sh' : Shared R} {q : Pc} (h : CallFacts sh q)
    (h2 : sh'.fut = sh.fut) (h4 : sh'.nextCb = sh.nextCb) (h5 : sh'.log = sh.log) :
    CallFacts sh' q :=
  h.mono (fun cb _ x => by rwa [h5] at x) (by omega) (fun x hx => by rwa [h5])
    (fun _ x => by rwa [h2])

/-- A change of the scheduler that is not a cancellation. -/
theorem Facts.setSched {sh : Shared R} (f : Facts sh) {x : Sched}
    (h1 : x = .cancelled ↔ sh.sched = .cancelled)
    (h2 : ∀ cb, x = .set cb → ¬ StartedAfterCancel cb sh.log ∧ cb < sh.nextCb) :
    Facts { sh with sched := x } := by
  obtain ⟨f1, f2, f3, f4, f5, f6, f7, f8, f9, f10⟩ := f
  exact ⟨f1, by simpa [h1] using f2, f3, f4, f5, f6, f7, f8, f9, h2⟩

theorem Facts.cancel {sh : Shared R} (f : Facts sh) :
    Facts ({ sh with sched := .cancelled }.add .cancelled) := by
  obtain ⟨f1, f2, f3, f4, f5, f6, f7, f8, f9, f10⟩ := f
  refine ⟨?_, ?_, ?_, ?_, ?_, ?_, ?_, ?_, ?_, ?_⟩
  · intro cb; simp [Shared.add, f1 cb]
  · simp [Shared.add]
  · simpa [Shared.add, Async.drops] using f3
  · simpa [Shared.add, Async.releases] using f4
  · simpa [Shared.add, Fresh] using f5
  · simpa [Shared.add, Unclaimed] using f6
  · simpa [Shared.add] using f7
  · simp [Shared.add]
  · simp only [Shared.add, hist_snoc]; exact ⟨f9, trivial⟩
  · intro cb hs; simp [Shared.add] at hs

/-- Dropping the contents of the future while it is alive. -/
theorem Facts.takeResult {sh : Shared R} (f : Facts sh) (hc : 0 < sh.count) {e : Ev R}
    (he : e = .freed ∧ Ev.cancelled ∈ sh.log ∨ e = .completed sh.result) :
    Facts (sh.freeInner.add e) := by
  obtain ⟨f1, f2, f3, f4, f5, f6, f7, f8, f9, f10⟩ := f
  have ha : Allowed sh.log e := by
    rcases he with ⟨rfl, h⟩ | rfl
    · exact h
    · exact f6 hc
  have ha' : Allowed (sh.log ++ [.innerDropped]) e := by
    rcases he with ⟨rfl, h⟩ | rfl
    · simp [Allowed, h]
    · intro r; simpa [Unclaimed] using f6 hc r
  have hn : ¬ (∃ r, e = Ev.innerReady r) := by
    rcases he with ⟨rfl, h⟩ | rfl <;> simp
  have hs : ∀ cb, e ≠ .started cb := by
    rcases he with ⟨rfl, h⟩ | rfl <;> simp
  have hcn : e ≠ .cancelled := by
    rcases he with ⟨rfl, h⟩ | rfl <;> simp
  have e6 : Async.drops [e] = 0 := by rcases he with ⟨rfl, h⟩ | rfl <;> rfl
  have e7 : Async.releases [e] = 0 := by rcases he with ⟨rfl, h⟩ | rfl <;> rfl
  have hu : ∀ l : List (Ev R), ∀ r, ¬ Unclaimed r (l ++ [e]) := by
    intro l r h
    rcases he with ⟨rfl, _⟩ | rfl
    · exact h.2.2 (by simp)
    · exact h.2.1 sh.result (by simp)
  have hg : (∃ o, e = Ev.completed o) ∨ e = Ev.freed := by
    rcases he with ⟨rfl, h⟩ | rfl
    · exact .inr rfl
    · exact .inl ⟨_, rfl⟩
  unfold Shared.freeInner
  split
  · rename_i hfut
    refine ⟨?_, ?_, ?_, ?_, ?_, ?_, ?_, ?_, ?_, ?_⟩
    · intro cb; simp [Shared.add, f1 cb, (hs cb).symm]
    · simp [Shared.add, f2, hcn.symm]
    · simp [Shared.add, f3, hfut, e6, Async.drops]
    · simpa [Shared.add, e7, Async.releases] using f4
    · simp [Shared.add]
    · intro _ r
      simp only [Shared.add, reduceCtorEq, false_iff]
      exact hu _ r
    · intro _ _
      rcases hg with ⟨o, rfl⟩ | rfl
      · exact .inr (.inl ⟨o, by simp [Shared.add]⟩)
      · exact .inr (.inr (by simp [Shared.add]))
    · rcases he with ⟨rfl, h⟩ | rfl
      · simp [Shared.add, h]
      · simpa [Shared.add] using f8
    · simp only [Shared.add, hist_snoc]; exact ⟨⟨f9, trivial⟩, ha'⟩
    · intro cb h
      have := f10 cb h
      simp only [Shared.add, afterCancel_snoc, hs, false_and, or_false, reduceCtorEq]
      exact this
  · rename_i hfut
    refine ⟨?_, ?_, ?_, ?_, ?_, ?_, ?_, ?_, ?_, ?_⟩
    · intro cb; simp [Shared.add, f1 cb, (hs cb).symm]
    · simp [Shared.add, f2, hcn.symm]
    · simp [Shared.add, f3, hfut, e6]
    · simpa [Shared.add, e7] using f4
    · simp [Shared.add, hfut]
    · intro _ r
      simp only [Shared.add, reduceCtorEq, false_iff]
      exact hu _ r
    · intro _ _
      rcases hg with ⟨o, rfl⟩ | rfl
      · exact .inr (.inl ⟨o, by simp [Shared.add]⟩)
      · exact .inr (.inr (by simp [Shared.add]))
    · rcases he with ⟨rfl, h⟩ | rfl
      · simp [Shared.add, h]
      · simpa [Shared.add] using f8
    · simp only [Shared.add, hist_snoc]; exact ⟨f9, ha⟩
    · intro cb h
      have := f10 cb h
      simp only [Shared.add, afterCancel_snoc, hs, false_and, or_false]
      exact this

theorem freeInner_nextCb (sh : Shared R) : sh.freeInner.nextCb = sh.nextCb := by
  unfold Shared.freeInner; split <;> rfl

/-- Other calls are not disturbed when a call that holds the mutex drops the contents. -/
theorem CallFacts.freeInner {sh : Shared R} {q : Pc} (h : CallFacts sh q) (hq : q.holds = 0)
    {e : Ev R} (he : ∀ cb, e ≠ .started cb) : CallFacts (sh.freeInner.add e) q := by
  refine CallFacts.snoc ?_ he
  refine h.mono ?_ (by rw [freeInner_nextCb]; exact Nat.le_refl _) ?_ (fun h1 => by omega)
  · intro cb _ x
    unfold Shared.freeInner at x
    split at x
    · simpa [Shared.add, afterCancel_snoc] using x
    · exact x
  · intro x hx
    unfold Shared.freeInner
    split
    · simp [Shared.add, hx]
    · exact hx

/-- Dropping a reference that is not the last. -/
theorem dropArc_of_two {sh : Shared R} (h : 2 ≤ sh.count) :
    sh.dropArc = { sh with count := sh.count - 1 } := by
  unfold Shared.dropArc
  rw [if_neg (by omega)]

theorem dropArc_nextCb (sh : Shared R) : sh.dropArc.nextCb = sh.nextCb := by
  unfold Shared.dropArc; split <;> (try split) <;> rfl

/-- Dropping a reference. -/
theorem Facts.dropArc {sh : Shared R} (f : Facts sh) (hc : 0 < sh.count) : Facts sh.dropArc := by
  by_cases h1 : sh.count = 1
  · obtain ⟨f1, f2, f3, f4, f5, f6, f7, f8, f9, f10⟩ := f
    have hr : Async.releases sh.log = 0 := by rw [f4, h1]; rfl
    unfold Shared.dropArc
    rw [if_pos h1]
    split
    · rename_i hfut
      refine ⟨?_, ?_, ?_, ?_, ?_, ?_, ?_, ?_, ?_, ?_⟩
      · intro cb; simp [Shared.add, f1 cb]
      · simp [Shared.add, f2]
      · simp [Shared.add, f3, hfut, Async.drops]
      · simp [Shared.add, hr, Async.releases]
      · simp [Shared.add]
      · simp [Shared.add]
      · simp [Shared.add]
      · simpa [Shared.add] using f8
      · simp only [Shared.add, hist_snoc]; exact ⟨⟨f9, trivial⟩, trivial⟩
      · intro cb hs
        simp only [Shared.add, afterCancel_snoc, reduceCtorEq, false_and, or_false]
        exact f10 cb hs
    · rename_i hfut
      refine ⟨?_, ?_, ?_, ?_, ?_, ?_, ?_, ?_, ?_, ?_⟩
      · intro cb; simp [Shared.add, f1 cb]
      · simp [Shared.add, f2]
      · simp [Shared.add, f3, hfut, Async.drops]
      · simp [Shared.add, hr, Async.releases]
      · simp [Shared.add, hfut]
      · simp [Shared.add]
      · simp [Shared.add]
      · simpa [Shared.add] using f8
      · simp only [Shared.add, hist_snoc]; exact ⟨f9, trivial⟩
      · intro cb hs
        simp only [Shared.add, afterCancel_snoc, reduceCtorEq, false_and, or_false]
        exact f10 cb hs
  · rw [dropArc_of_two (by omega)]
    exact f.congr hc (by dsimp only; omega) rfl rfl rfl rfl rfl

/-- Other calls when a reference is dropped: none of them is inside the future if it was the
last. -/
theorem CallFacts.dropArc {sh : Shared R} {q : Pc} (h : CallFacts sh q)
    (hq : sh.count = 1 → q.holds = 0) : CallFacts sh.dropArc q := by
  by_cases h1 : sh.count = 1
  · refine h.mono ?_ (by rw [dropArc_nextCb]; exact Nat.le_refl _) ?_ (fun h2 => by
      have := hq h1; omega)
    · intro cb _ x
      unfold Shared.dropArc at x
      rw [if_pos h1] at x
      split at x <;> simpa only [Shared.add, afterCancel_snoc, reduceCtorEq, false_and, or_false] using x
    · intro x hx
      unfold Shared.dropArc
      rw [if_pos h1]
      split <;> simp [Shared.add, hx]
  · refine h.congr ?_ (dropArc_nextCb _) ?_ <;> unfold Shared.dropArc <;> rw [if_neg h1]

theorem facts_run (sh sh' : Shared R) (pc : Pc) (pc' : Option Pc) (o : Option R)
    (hc : 0 < sh.count) (ha : pc.arcs ≤ sh.count) (f : Facts sh) (hq : CallFacts sh pc)
    (h : step o sh pc = some (pc', sh')) :
    Facts sh' ∧ (∀ q ∈ pc', CallFacts sh' q) ∧
      ∀ q, (pc.holds = 1 → q.holds = 0) → (pc = .dropArc → sh.count = 1 → q.holds = 0) →
        CallFacts sh q → CallFacts sh' q := by
  have f0 := f
  obtain ⟨f1, f2, f3, f4, f5, f6, f7, f8, f9, f10⟩ := f0
  cases pc with
  | pollStart cb =>
    simp only [step, Shared.touch_eq hc] at h
    split at h <;> rename_i hcan <;> simp only [Option.some.injEq, Prod.mk.injEq] at h <;>
      obtain ⟨rfl, rfl⟩ := h
    · refine ⟨f, ?_, fun q _ _ hq => hq⟩
      simp [Sched.isCancelled] at hcan
      rintro q ⟨⟩
      refine ⟨by simp, fun _ => .inr (.inr (f2.2 hcan)), by simp⟩
    · refine ⟨f, ?_, fun q _ _ hq => hq⟩
      simp [Sched.isCancelled] at hcan
      rintro q ⟨⟩
      refine ⟨?_, hq⟩
      rintro ⟨a, b, hx, _⟩
      exact hcan (f2.1 (by simp [hx]))
  | pollLock cb =>
    simp only [step, Shared.touch_eq hc] at h
    split at h <;> simp only [Option.some.injEq, Prod.mk.injEq, reduceCtorEq] at h
    obtain ⟨rfl, rfl⟩ := h
    refine ⟨f.congr hc hc rfl rfl rfl rfl rfl, ?_, fun q _ _ hq => hq.congr rfl rfl rfl⟩
    rintro q ⟨⟩
    exact hq
  | pollBody cb =>
    simp only [step, Shared.touch_eq hc] at h
    have fc : Facts { sh with count := sh.count + 1 } :=
      f.congr hc (Nat.succ_pos _) rfl rfl rfl rfl rfl
    split at h
    · rename_i hres
      simp only [Option.some.injEq, Prod.mk.injEq] at h; obtain ⟨rfl, rfl⟩ := h
      refine ⟨fc, ?_, fun q _ _ hq => hq.congr rfl rfl rfl⟩
      rintro q ⟨⟩
      refine ⟨hq.1, hq.2, fun _ => ?_⟩
      obtain ⟨r, hr⟩ := Option.isSome_iff_exists.1 hres
      exact .inl ⟨r, ((f6 hc r).1 hr).1⟩
    · split at h <;> rename_i hfut <;> simp only [Option.some.injEq, Prod.mk.injEq] at h <;>
        obtain ⟨rfl, rfl⟩ := h
      · refine ⟨fc.snoc rfl ?_, ?_, fun q _ _ hq => (hq.congr rfl rfl rfl).snoc (by simp)⟩
        · refine ⟨(f5 hfut).1, ?_, hq.1, (f1 cb).2 hq.2⟩
          intro hx
          rw [← drops_pos, f3] at hx
          simp [show sh.fut = true from hfut] at hx
        · rintro q ⟨⟩
          refine ⟨?_, hq.2, hfut⟩
          simp only [Shared.add, afterCancel_snoc, reduceCtorEq, false_and, or_false]
          exact hq.1
      · refine ⟨fc, ?_, fun q _ _ hq => hq.congr rfl rfl rfl⟩
        rintro q ⟨⟩
        refine ⟨hq.1, hq.2, fun _ => ?_⟩
        rcases f7 hc (by simpa using hfut) with x | x | x
        · exact .inl x
        · exact .inr (.inl x)
        · exact .inr (.inr (f8 x))
  | inFuture cb =>
    simp only [step, Shared.touch_eq hc] at h
    cases o with
    | none =>
      simp only [Option.some.injEq, Prod.mk.injEq] at h; obtain ⟨rfl, rfl⟩ := h
      refine ⟨f, ?_, fun q _ _ hq => hq⟩
      rintro q ⟨⟩
      exact ⟨hq.1, hq.2.1, by simp⟩
    | some r =>
      simp only [Option.some.injEq, Prod.mk.injEq] at h; obtain ⟨rfl, rfl⟩ := h
      have hfut := hq.2.2
      have hfr := (f5 hfut).1
      refine ⟨⟨?_, ?_, ?_, ?_, ?_, ?_, ?_, ?_, ?_, ?_⟩, ?_, ?_⟩
      · intro cb; simp [Shared.add, f1 cb]
      · simp [Shared.add, f2]
      · simp [Shared.add, f3, hfut, drops]
      · simpa [Shared.add, releases] using f4
      · simp [Shared.add]
      · intro _ r'
        have a := hfr.1 r'
        simp only [Shared.add, Option.some.injEq, Unclaimed, List.mem_append, List.mem_singleton,
          Ev.innerReady.injEq, reduceCtorEq, or_false, a, false_or]
        exact ⟨fun h => ⟨h.symm, hfr.2⟩, fun h => h.1.symm⟩
      · intro _ _; exact .inl ⟨r, by simp [Shared.add]⟩
      · simpa [Shared.add] using f8
      · simp only [Shared.add, hist_snoc]; exact ⟨⟨f9, hfr⟩, trivial⟩
      · intro cb hs
        simp only [Shared.add, afterCancel_snoc, reduceCtorEq, false_and, or_false]
        exact f10 cb hs
      · rintro q ⟨⟩
        refine ⟨?_, hq.2.1, fun _ => .inl ⟨r, by simp [Shared.add]⟩⟩
        simp only [Shared.add, afterCancel_snoc, reduceCtorEq, false_and, or_false]
        exact hq.1
      · intro q hl _ hq'
        refine hq'.mono ?_ (Nat.le_refl _) ?_ (fun x => by have := hl rfl; omega)
        · intro cb _ x
          simpa only [Shared.add, afterCancel_snoc, reduceCtorEq, false_and, or_false] using x
        · intro x hx; simp [Shared.add, hx]
  | pollDropWaker cb ready =>
    simp only [step, Shared.touch_eq hc, Option.some.injEq, Prod.mk.injEq] at h
    obtain ⟨rfl, rfl⟩ := h
    have h2 : 2 ≤ sh.count := ha
    refine ⟨f.dropArc hc, ?_, fun q _ _ hq => hq.dropArc (by omega)⟩
    rintro q ⟨⟩
    rw [dropArc_of_two h2]
    exact hq
  | pollUnlock cb ready =>
    simp only [step, Shared.touch_eq hc] at h
    split at h <;> rename_i hr <;> simp only [Option.some.injEq, Prod.mk.injEq] at h <;>
      obtain ⟨rfl, rfl⟩ := h
    · refine ⟨f.congr hc hc rfl rfl rfl rfl rfl, ?_, fun q _ _ hq => hq.congr rfl rfl rfl⟩
      rintro q ⟨⟩
      exact ⟨by simp, fun _ => hq.2.2 hr, by simp⟩
    · refine ⟨f.congr hc hc rfl rfl rfl rfl rfl, ?_, fun q _ _ hq => hq.congr rfl rfl rfl⟩
      rintro q ⟨⟩
      exact ⟨hq.1, hq.2.1⟩
  | store cb =>
    simp only [step, Shared.touch_eq hc, Option.some.injEq, Prod.mk.injEq] at h
    obtain ⟨rfl, rfl⟩ := h
    refine ⟨f.setSched ?_ ?_, ?_, fun q _ _ hq => hq.congr rfl rfl rfl⟩
    · cases sh.sched <;> simp [Sched.store]
    · intro c
      cases sh.sched <;> simp [Sched.store]
      · rintro rfl; exact hq
      · rintro rfl; exact hq
    · cases hs : sh.sched <;> simp only [Sched.store, invokeThen, After.pc] <;> rintro q ⟨⟩
      · trivial
      · exact ⟨fun _ => hq, by simp, by simp⟩
      · exact ⟨by simp, fun _ => .inr (.inr (f2.2 hs)), by simp⟩
      · exact ⟨fun _ => f10 _ hs, by simp, by simp⟩
  | invoke cb p k =>
    simp only [step, Option.some.injEq, Prod.mk.injEq] at h
    obtain ⟨rfl, rfl⟩ := h
    refine ⟨f.snoc rfl ?_, ?_, fun q _ _ hq => hq.snoc (by simp)⟩
    · cases p
      · exact hq.2.1 rfl
      · exact ⟨(hq.1 rfl).1, (f1 cb).2 (hq.1 rfl).2⟩
    · cases k <;> simp only [After.pc] <;> rintro q ⟨⟩
      · trivial
      · have := hq.2.2 rfl; simpa [CallFacts, Shared.add] using this
  | dropArc =>
    simp only [step, Shared.touch_eq hc, Option.some.injEq, Prod.mk.injEq] at h
    obtain ⟨rfl, rfl⟩ := h
    exact ⟨f.dropArc hc, by simp, fun q _ h2 hq => hq.dropArc (h2 rfl)⟩
  | cancel free =>
    simp only [step, Shared.touch_eq hc, Option.some.injEq, Prod.mk.injEq] at h
    obtain ⟨rfl, rfl⟩ := h
    have e : sh.sched.cancel.1 = .cancelled := by cases sh.sched <;> rfl
    rw [e]
    refine ⟨f.cancel, ?_, fun q _ _ hq => (hq.congr (sh' := { sh with sched := .cancelled })
      rfl rfl rfl).snoc (by simp)⟩
    have hm : Ev.cancelled ∈ ({ sh with sched := Sched.cancelled }.add .cancelled).log := by
      simp [Shared.add]
    cases hs : sh.sched <;> cases free <;> simp only [Sched.cancel, invokeThen, After.pc] <;>
      rintro q ⟨⟩
    all_goals first
      | trivial
      | exact hm
      | exact ⟨fun h => (nomatch h), fun _ => .inr (.inr hm), fun _ => hm⟩
  | freeLock =>
    simp only [step, Shared.touch_eq hc] at h
    split at h <;> simp only [Option.some.injEq, Prod.mk.injEq, reduceCtorEq] at h
    obtain ⟨rfl, rfl⟩ := h
    refine ⟨f.congr hc hc rfl rfl rfl rfl rfl, ?_, fun q _ _ hq => hq.congr rfl rfl rfl⟩
    rintro q ⟨⟩
    exact hq
  | freeBody =>
    simp only [step, Shared.touch_eq hc, Option.some.injEq, Prod.mk.injEq] at h
    obtain ⟨rfl, rfl⟩ := h
    refine ⟨f.takeResult hc (.inl ⟨rfl, hq⟩), ?_, fun q hl _ hq => hq.freeInner (hl rfl) (by simp)⟩
    rintro q ⟨⟩; trivial
  | freeUnlock =>
    simp only [step, Shared.touch_eq hc, Option.some.injEq, Prod.mk.injEq] at h
    obtain ⟨rfl, rfl⟩ := h
    refine ⟨f.congr hc hc rfl rfl rfl rfl rfl, ?_, fun q _ _ hq => hq.congr rfl rfl rfl⟩
    rintro q ⟨⟩; trivial
  | complLock =>
    simp only [step, Shared.touch_eq hc] at h
    split at h <;> simp only [Option.some.injEq, Prod.mk.injEq, reduceCtorEq] at h
    obtain ⟨rfl, rfl⟩ := h
    refine ⟨f.congr hc hc rfl rfl rfl rfl rfl, ?_, fun q _ _ hq => hq.congr rfl rfl rfl⟩
    rintro q ⟨⟩; trivial
  | complBody =>
    simp only [step, Shared.touch_eq hc, Option.some.injEq, Prod.mk.injEq] at h
    obtain ⟨rfl, rfl⟩ := h
    refine ⟨f.takeResult hc (.inr rfl), ?_, fun q hl _ hq => hq.freeInner (hl rfl) (by simp)⟩
    rintro q ⟨⟩; trivial
  | complUnlock =>
    simp only [step, Shared.touch_eq hc, Option.some.injEq, Prod.mk.injEq] at h
    obtain ⟨rfl, rfl⟩ := h
    refine ⟨f.congr hc hc rfl rfl rfl rfl rfl, ?_, fun q _ _ hq => hq.congr rfl rfl rfl⟩
    rintro q ⟨⟩; trivial
  | wake owns =>
    simp only [step, Shared.touch_eq hc, Option.some.injEq, Prod.mk.injEq] at h
    obtain ⟨rfl, rfl⟩ := h
    refine ⟨(f.setSched ?_ ?_).snoc rfl trivial, ?_, fun q _ _ hq => (hq.congr
      (sh' := { sh with sched := sh.sched.wake.1 }) rfl rfl rfl).snoc (by simp)⟩
    · cases sh.sched <;> simp [Sched.wake]
    · intro c
      cases sh.sched <;> simp [Sched.wake]
    · cases hs : sh.sched <;> cases owns <;> simp only [Sched.wake, invokeThen, After.pc] <;>
        rintro q ⟨⟩
      all_goals first
        | trivial
        | (refine ⟨fun _ => ?_, by simp, by simp⟩
           have := f10 _ hs
           simp only [Shared.add, afterCancel_snoc, reduceCtorEq, false_and, or_false]
           exact this)

/-- Every reachable state satisfies the facts. -/
theorem Reachable.facts {s : St R} (h : Reachable s) :
    Facts s.sh ∧ ∀ pc ∈ s.acts, CallFacts s.sh pc :=
  Reachable.induct Facts CallFacts facts_init facts_start
    (fun sh sh' pc pc' o hc ha _ f hq h => facts_run sh sh' pc pc' o hc ha f hq h) h

end Verif.Async
