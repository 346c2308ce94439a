import Verif.Handles.HandleMapLemmas
/-
C34: the handle maps of Python, Kotlin, Swift and Ruby, for every interleaving of any number of
threads. `Reach L s` ranges over all states of all executions. `s.log` lists the answers given to
callers, in the order the operations take effect. `s.counter = 1 + 2 * n` when `n` handles were
taken; the theorems are about executions that take at most 2^63 of them.
-/
namespace Verif.Props.HandleMap
open Verif Verif.HandleMap

variable {α : Type} {L : Lang} {s : St α}

/-! ### Specification -/

/-- A caller was given `h` for `x`, by insert or by clone. -/
def GivenFor (log : List (Ev α)) (h : Nat) (x : α) : Prop :=
  Ev.inserted h x ∈ log ∨ ∃ src, Ev.cloned src h x ∈ log

/-- A caller removed `h`. -/
def WasRemoved (log : List (Ev α)) (h : Nat) : Prop := ∃ x, Ev.removed h x ∈ log

/-- The handle an answer gives out. -/
def given? : Ev α → Option Nat
  | .inserted h _ => some h
  | .cloned _ h _ => some h
  | _ => none

/-- All handles given out. -/
def given (log : List (Ev α)) : List Nat := log.filterMap given?

theorem given_eq (log : List (Ev α)) : given log = issued log := by
  induction log with
  | nil => rfl
  | cons e l ih => rw [given] at *; cases e <;> simp [List.filterMap_cons, given?, issued, ih]

/-! ### Executions as lists of commands, to show that states are reachable -/

/-- `none`: start an operation; `some i`: the `i`-th running operation makes a step. -/
def exec (L : Lang) : St α → List (Op α ⊕ Nat) → Option (St α)
  | s, [] => some s
  | s, .inl op :: l => exec L { s with acts := s.acts ++ [.begin op] } l
  | s, .inr i :: l => match s.acts[i]? with
    | none => none
    | some pc => match step L s pc with
      | none => none
      | some r => exec L { r.2 with acts := s.acts.take i ++ r.1.toList ++ s.acts.drop (i + 1) } l

theorem exec_reach {s s' : St α} {l : List (Op α ⊕ Nat)} (hs : Reach L s)
    (h : exec L s l = some s') : Reach L s' := by
  induction l generalizing s with
  | nil => simp only [exec, Option.some.injEq] at h; exact h ▸ hs
  | cons c l ih =>
    cases c with
    | inl op => exact ih (.step _ _ hs (.start s op)) h
    | inr i =>
      simp only [exec] at h
      split at h
      · cases h
      · rename_i pc hpc
        split at h
        · cases h
        · rename_i r hr
          refine ih (.step _ _ hs (.run s _ _ pc r.1 r.2 ?_ hr)) h
          have hi := (List.getElem?_eq_some_iff.1 hpc).1
          conv => lhs; rw [← List.take_append_drop i s.acts]
          rw [List.drop_eq_getElem_cons hi, (List.getElem?_eq_some_iff.1 hpc).2]

/-- Kotlin: a clone and a removal of its source overlap. Two threads insert at the same time. -/
def demo : List (Op Nat ⊕ Nat) :=
  [.inl (.insert 10), .inl (.insert 20), .inr 0, .inr 1, .inr 1, .inr 0, .inr 0, .inr 0,
    .inl (.clone 3), .inr 0, .inr 0, .inl (.remove 3), .inr 1, .inr 1, .inr 0, .inr 0,
    .inl (.get 3), .inr 0, .inr 0, .inl (.get 5), .inr 0, .inr 0]

theorem demo_kotlin : ∃ s : St Nat, Reach kotlin s ∧ s.counter = 7 ∧ s.log =
    [.inserted 3 10, .inserted 1 20, .removed 3 10, .cloned 3 5 10, .invalid 3, .got 5 10] ∧
    s.map = [(5, 10), (1, 20)] :=
  ⟨_, exec_reach (l := demo) .init rfl, by decide⟩

/-- Python: the same operations. The second insertion waits for the lock. -/
def demoLocked : List (Op Nat ⊕ Nat) :=
  [.inl (.insert 10), .inl (.insert 20), .inr 0, .inr 0, .inr 0, .inr 0, .inr 0, .inr 0, .inr 0,
    .inr 0, .inl (.clone 3), .inr 0, .inr 0, .inr 0, .inr 0, .inr 0, .inl (.remove 3), .inr 0, .inr 0,
    .inl (.get 3), .inr 0, .inr 0, .inl (.get 5), .inr 0, .inr 0]

theorem demo_locked : ∀ L ∈ [python, swift, ruby], ∃ s : St Nat, Reach L s ∧ s.counter = 7 ∧ s.log =
    [.inserted 1 10, .inserted 3 20, .cloned 3 5 20, .removed 3 20, .invalid 3, .got 5 20] ∧
    s.map = [(5, 20), (1, 10)] := by
  intro L hL
  simp only [List.mem_cons, List.not_mem_nil, or_false] at hL
  rcases hL with rfl | rfl | rfl
  · exact ⟨_, exec_reach (l := demoLocked) .init rfl, by decide⟩
  · exact ⟨_, exec_reach (l := demoLocked) .init rfl, by decide⟩
  · exact ⟨_, exec_reach (l := demoLocked) .init rfl, by decide⟩

/-! ### C34 -/

section
variable (hL : L ∈ languages) (h : Reach L s) (hb : s.counter ≤ 1 + 2 * 2 ^ 63)
include hL h hb

private theorem inv : Inv L s := h.inv (exact_of_mem hL) (by omega)

/-- C34. Handles are odd, so they are not zero and not Rust's, and fit 64 bits. -/
theorem C34_odd (k : Nat) (x : α) (hk : GivenFor s.log k x) : k % 2 = 1 ∧ k ≠ 0 ∧ k < 2 ^ 64 := by
  have := (inv hL h hb).takenOk k (List.mem_append_left _ (mem_issued.2 ⟨x, hk⟩))
  omega

/-- C34. No handle is given out twice, not even after its removal. -/
theorem C34_distinct : (given s.log).Nodup := by
  rw [given_eq]; exact (List.nodup_append.1 (inv hL h hb).taken).1

/-- C34. `get` returns the object the handle was given out for, and the handle was not removed. -/
theorem C34_get (pre post : List (Ev α)) (k : Nat) (x : α) (hl : s.log = pre ++ .got k x :: post) :
    GivenFor pre k x ∧ ¬ WasRemoved pre k := (inv hL h hb).good.at hl

/-- C34. So does `remove`: a handle is removed at most once. -/
theorem C34_remove (pre post : List (Ev α)) (k : Nat) (x : α)
    (hl : s.log = pre ++ .removed k x :: post) : GivenFor pre k x ∧ ¬ WasRemoved pre k :=
  (inv hL h hb).good.at hl

/-- C34. `clone` gives a new handle for the object its argument was given out for. -/
theorem C34_clone (pre post : List (Ev α)) (k k' : Nat) (x : α)
    (hl : s.log = pre ++ .cloned k k' x :: post) : GivenFor pre k x ∧ k' ∉ given pre := by
  have := (inv hL h hb).good.at hl
  exact ⟨this.2.2, given_eq pre ▸ this.1⟩

/-- C34. The error is raised only for a handle that was not given out, or was removed. -/
theorem C34_invalid (pre post : List (Ev α)) (k : Nat) (hl : s.log = pre ++ .invalid k :: post) :
    k ∉ given pre ∨ WasRemoved pre k := by
  have := (inv hL h hb).good.at hl
  refine Classical.byContradiction fun hn => ?_
  rw [not_or, Classical.not_not, given_eq, mem_issued] at hn
  obtain ⟨⟨x, hx⟩, hr⟩ := hn
  exact this x ⟨hx, hr⟩

/-- C34. A handle means one object, forever. -/
theorem C34_one_object (k : Nat) (x y : α) (hx : GivenFor s.log k x) (hy : GivenFor s.log k y) :
    x = y := by
  have hn := C34_distinct hL h hb
  have key : ∀ (log : List (Ev α)), (given log).Nodup → GivenFor log k x → GivenFor log k y → x = y := by
    intro log
    induction log with
    | nil => intro _ hx; simp [GivenFor] at hx
    | cons e l ih =>
      intro hn hx hy
      have hin : ∀ z, GivenFor l k z → k ∈ given l := fun z hz => by
        rw [given_eq]; exact mem_issued.2 ⟨z, hz⟩
      simp only [given_eq] at hn hin ih
      simp only [GivenFor, List.mem_cons] at hx hy hin ih
      cases e with
      | inserted a z =>
        simp only [issued, List.nodup_cons] at hn
        simp only [Ev.inserted.injEq, reduceCtorEq, false_or] at hx hy
        rcases hx with (⟨rfl, rfl⟩ | hx) | hx
        · rcases hy with (⟨_, rfl⟩ | hy) | hy
          · rfl
          · exact absurd (hin _ (.inl hy)) hn.1
          · exact absurd (hin _ (.inr hy)) hn.1
        · rcases hy with (⟨rfl, rfl⟩ | hy) | hy
          · exact absurd (hin _ (.inl hx)) hn.1
          · exact ih hn.2 (.inl hx) (.inl hy)
          · exact ih hn.2 (.inl hx) (.inr hy)
        · rcases hy with (⟨rfl, rfl⟩ | hy) | hy
          · exact absurd (hin _ (.inr hx)) hn.1
          · exact ih hn.2 (.inr hx) (.inl hy)
          · exact ih hn.2 (.inr hx) (.inr hy)
      | cloned b a z =>
        simp only [issued, List.nodup_cons] at hn
        simp only [Ev.cloned.injEq, reduceCtorEq, false_or] at hx hy
        rcases hx with hx | ⟨s1, ⟨rfl, rfl, rfl⟩ | hx⟩
        · rcases hy with hy | ⟨s2, ⟨rfl, rfl, rfl⟩ | hy⟩
          · exact ih hn.2 (.inl hx) (.inl hy)
          · exact absurd (hin _ (.inl hx)) hn.1
          · exact ih hn.2 (.inl hx) (.inr ⟨_, hy⟩)
        · rcases hy with hy | ⟨s2, ⟨_, _, rfl⟩ | hy⟩
          · exact absurd (hin _ (.inl hy)) hn.1
          · rfl
          · exact absurd (hin _ (.inr ⟨_, hy⟩)) hn.1
        · rcases hy with hy | ⟨s2, ⟨rfl, rfl, rfl⟩ | hy⟩
          · exact ih hn.2 (.inr ⟨_, hx⟩) (.inl hy)
          · exact absurd (hin _ (.inr ⟨_, hx⟩)) hn.1
          · exact ih hn.2 (.inr ⟨_, hx⟩) (.inr ⟨_, hy⟩)
      | got => exact ih (by simpa [issued] using hn) (by simpa using hx) (by simpa using hy)
      | removed => exact ih (by simpa [issued] using hn) (by simpa using hx) (by simpa using hy)
      | invalid => exact ih (by simpa [issued] using hn) (by simpa using hx) (by simpa using hy)
  exact key s.log hn hx hy

/-- C34. The map holds exactly the handles given out and not removed, with their objects, one entry
each. -/
theorem C34_holds :
    (∀ k x, (k, x) ∈ s.map ↔ GivenFor s.log k x ∧ ¬ WasRemoved s.log k) ∧ (s.map.map (·.1)).Nodup :=
  ⟨(inv hL h hb).map, (inv hL h hb).keys⟩

/-- C34. The threads never block each other for good: some running operation can make a step. -/
theorem C34_no_deadlock (hc : s.counter + 2 < 2 ^ 64) (ha : s.acts ≠ []) :
    ∃ pc ∈ s.acts, (step L s pc).isSome = true := by
  have i := inv hL h hb
  have hh : (L.handle s.counter).isSome = true := by
    simp only [languages, List.mem_cons, List.not_mem_nil, or_false] at hL
    rcases hL with rfl | rfl | rfl | rfl
    · rfl
    · rfl
    · simp only [swift]; rw [if_pos hc]; rfl
    · rfl
  have hin : ∀ pc : Pc α, pc.inside = true → (step L s pc).isSome = true := by
    intro pc hp
    obtain ⟨c, hc⟩ := Option.isSome_iff_exists.1 hh
    cases pc with
    | begin => cases hp
    | cloneLookup => simp only [step]; split <;> rfl
    | readCounter => simp only [step, hc]; split <;> rfl
    | addCounter => rfl
    | put => rfl
    | lookup => simp only [step]; split <;> rfl
    | delete => simp only [step]; split <;> rfl
  obtain ⟨pc, hpc⟩ := List.exists_mem_of_ne_nil _ ha
  by_cases hx : ∃ q ∈ s.acts, q.inside = true
  · obtain ⟨q, hq, hq'⟩ := hx; exact ⟨q, hq, hin q hq'⟩
  · have hnone : ∀ q ∈ s.acts, q.inside = false := fun q hq => by
      cases hi : q.inside with
      | false => rfl
      | true => exact absurd ⟨q, hq, hi⟩ hx
    refine ⟨pc, hpc, ?_⟩
    cases pc with
    | begin op =>
      simp only [step]
      split
      · rename_i hl
        have hc := i.lock hl
        have : s.acts.countP Pc.inside = 0 := by
          rw [List.countP_eq_zero]; intro q hq; simp [hnone q hq]
        rw [this] at hc
        cases hk : s.locked <;> simp [hk] at hc ⊢
      · rfl
    | _ => exact absurd (hnone _ hpc) (by simp [Pc.inside])

end

/-- The theorems apply to states where much has happened. -/
example : ∃ (L : Lang) (s : St Nat), L ∈ languages ∧ Reach L s ∧ s.counter ≤ 1 + 2 * 2 ^ 63 ∧
    GivenFor s.log 5 10 ∧ WasRemoved s.log 3 ∧ ¬ WasRemoved s.log 5 := by
  obtain ⟨s, h1, h2, h3, _⟩ := demo_kotlin
  refine ⟨kotlin, s, by simp [languages], h1, by omega, ?_, ?_, ?_⟩
  · rw [h3]; exact .inr ⟨3, by decide⟩
  · rw [h3]; exact ⟨10, by decide⟩
  · rw [h3]; rintro ⟨x, hx⟩; simp at hx

end Verif.Props.HandleMap
