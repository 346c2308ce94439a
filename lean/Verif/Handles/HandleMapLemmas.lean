import Verif.Handles.HandleMap
/-
Invariants of the handle maps.
-/
namespace Verif.HandleMap
open Verif

variable {α : Type}

/-- `h` was given out for `x`. -/
def Issued (log : List (Ev α)) (h : Nat) (x : α) : Prop :=
  Ev.inserted h x ∈ log ∨ ∃ s, Ev.cloned s h x ∈ log

/-- The handles given out, in order. -/
def issued : List (Ev α) → List Nat
  | [] => []
  | .inserted h _ :: l => h :: issued l
  | .cloned _ h _ :: l => h :: issued l
  | _ :: l => issued l

@[simp] theorem issued_append (a b : List (Ev α)) : issued (a ++ b) = issued a ++ issued b := by
  induction a with
  | nil => rfl
  | cons e a ih => cases e <;> simp [issued, ih]

theorem mem_issued {log : List (Ev α)} {h : Nat} : h ∈ issued log ↔ ∃ x, Issued log h x := by
  induction log with
  | nil => simp [issued, Issued]
  | cons e l ih =>
    simp only [Issued] at ih ⊢
    cases e with
    | inserted a y =>
      simp only [issued, List.mem_cons, ih, Ev.inserted.injEq, reduceCtorEq, false_or]
      constructor
      · rintro (rfl | ⟨x, h⟩)
        · exact ⟨y, .inl (.inl ⟨rfl, rfl⟩)⟩
        · exact ⟨x, h.imp .inr id⟩
      · rintro ⟨x, (⟨rfl, rfl⟩ | h) | h⟩
        · exact .inl rfl
        · exact .inr ⟨x, .inl h⟩
        · exact .inr ⟨x, .inr h⟩
    | cloned s a y =>
      simp only [issued, List.mem_cons, ih, Ev.cloned.injEq, reduceCtorEq, false_or]
      constructor
      · rintro (rfl | ⟨x, h⟩)
        · exact ⟨y, .inr ⟨s, .inl ⟨rfl, rfl, rfl⟩⟩⟩
        · exact ⟨x, h.imp id fun ⟨s, h⟩ => ⟨s, .inr h⟩⟩
      · rintro ⟨x, h | ⟨s, ⟨rfl, rfl, rfl⟩ | h⟩⟩
        · exact .inr ⟨x, .inl h⟩
        · exact .inl rfl
        · exact .inr ⟨x, .inr ⟨s, h⟩⟩
    | got => simp [issued, ih]
    | removed => simp [issued, ih]
    | invalid => simp [issued, ih]

/-- `h` was removed. -/
def Removed (log : List (Ev α)) (h : Nat) : Prop := ∃ x, Ev.removed h x ∈ log

/-- `h` was given out for `x` and not removed. -/
def Live (log : List (Ev α)) (h : Nat) (x : α) : Prop := Issued log h x ∧ ¬ Removed log h

/-- What an event says about the past. -/
def Ok (log : List (Ev α)) : Ev α → Prop
  | .inserted h _ => h ∉ issued log ∧ ¬ Removed log h
  | .cloned s h x => h ∉ issued log ∧ ¬ Removed log h ∧ Issued log s x
  | .got h x => Live log h x
  | .removed h x => Live log h x
  | .invalid h => ∀ x, ¬ Live log h x

/-- Every event is right about its past. -/
inductive Good : List (Ev α) → Prop
  | nil : Good []
  | snoc (l : List (Ev α)) (e : Ev α) : Good l → Ok l e → Good (l ++ [e])

theorem Good.at {l pre post : List (Ev α)} {e : Ev α} (h : Good l) (hl : l = pre ++ e :: post) :
    Ok pre e := by
  induction h generalizing post with
  | nil => simp at hl
  | snoc l e' h ho ih =>
    rcases List.eq_nil_or_concat post with rfl | ⟨post', e'', rfl⟩
    · obtain ⟨rfl, he⟩ := List.append_inj' hl rfl
      cases he; exact ho
    · rw [List.concat_eq_append, ← List.cons_append, ← List.append_assoc] at hl
      obtain ⟨h1, _⟩ := List.append_inj' hl rfl
      exact ih h1

/-! ### The dictionary -/

theorem find_mem {m : List (Nat × α)} {h : Nat} {x : α} (hf : find m h = some x) : (h, x) ∈ m := by
  simp only [find, Option.map_eq_some_iff] at hf
  obtain ⟨⟨a, b⟩, h1, h2⟩ := hf
  have := List.find?_some h1
  simp only [beq_iff_eq] at this
  cases h2; cases this
  exact List.mem_of_find?_eq_some h1

theorem find_none {m : List (Nat × α)} {h : Nat} (hf : find m h = none) : ∀ x, (h, x) ∉ m := by
  simp only [find, Option.map_eq_none_iff, List.find?_eq_none] at hf
  intro x hx
  exact hf _ hx (by simp)

theorem mem_del {m : List (Nat × α)} {h k : Nat} {x : α} : (k, x) ∈ del m h ↔ (k, x) ∈ m ∧ k ≠ h := by
  simp [del]

theorem nodup_del {m : List (Nat × α)} {h : Nat} (hm : (m.map (·.1)).Nodup) :
    ((del m h).map (·.1)).Nodup :=
  hm.sublist (List.filter_sublist.map _)

theorem nodup_store {m : List (Nat × α)} {h : Nat} {x : α} (hm : (m.map (·.1)).Nodup) :
    ((store m h x).map (·.1)).Nodup := by
  rw [store, List.map_cons, List.nodup_cons]
  refine ⟨?_, nodup_del hm⟩
  simp [del]

/-! ### The invariant -/

/-- The handle an operation has taken but not stored yet. -/
def Pc.pending : Pc α → List Nat
  | .put _ _ h => [h]
  | _ => []

/-- Whether an operation holds the lock. -/
def Pc.inside : Pc α → Bool
  | .begin _ => false
  | _ => true

/-- The object an operation is about to clone is the one the handle was given out for. -/
def Pc.SrcOk (log : List (Ev α)) : Pc α → Prop
  | .readCounter (some s) x => Issued log s x
  | .addCounter (some s) x _ => Issued log s x
  | .put (some s) x _ => Issued log s x
  | _ => True

def Pc.AddOk (L : Lang) (counter : Nat) : Pc α → Prop
  | .addCounter _ _ h => L.lock = true ∧ L.handle counter = some h
  | _ => True

/-- Below the limit a handle is the counter. -/
def Lang.Exact (L : Lang) : Prop := ∀ c h, c < 2 ^ 64 → L.handle c = some h → h = c

theorem exact_of_mem {L : Lang} (h : L ∈ languages) : L.Exact := by
  simp only [languages, List.mem_cons, List.not_mem_nil, or_false] at h
  rcases h with rfl | rfl | rfl | rfl <;> intro c h hc he
  · simpa [python] using he.symm
  · simp only [kotlin, Option.some.injEq] at he
    rw [← he, Nat.mod_eq_of_lt hc]
  · simp only [swift] at he
    split at he
    · simpa using he.symm
    · cases he
  · simpa [ruby] using he.symm

/-- Handles given out or about to be. -/
def St.taken (s : St α) : List Nat := issued s.log ++ s.acts.flatMap Pc.pending

structure Inv (L : Lang) (s : St α) : Prop where
  odd : s.counter % 2 = 1
  lock : L.lock = true → s.acts.countP Pc.inside = s.locked.toNat
  taken : s.taken.Nodup
  takenOk : ∀ h ∈ s.taken, h % 2 = 1 ∧ h < s.counter ∧ h < 2 ^ 64
  keys : (s.map.map (·.1)).Nodup
  map : ∀ h x, (h, x) ∈ s.map ↔ Live s.log h x
  good : Good s.log
  removed : ∀ h, Removed s.log h → h ∈ issued s.log
  src : ∀ pc ∈ s.acts, pc.SrcOk s.log
  add : ∀ pc ∈ s.acts, pc.AddOk L s.counter

theorem Inv.init (L : Lang) : Inv L ({} : St α) where
  odd := rfl
  lock _ := rfl
  taken := by simp [St.taken, issued]
  takenOk := by simp [St.taken, issued]
  keys := by simp
  map h x := by simp [Live, Issued]
  good := .nil
  removed h := by simp [Removed]
  src := by simp
  add := by simp

theorem Issued.mono {l : List (Ev α)} {h : Nat} {x : α} (e : Ev α) (hi : Issued l h x) :
    Issued (l ++ [e]) h x := hi.imp (by simp_all) fun ⟨s, h⟩ => ⟨s, by simp [h]⟩

theorem Pc.SrcOk.mono {l : List (Ev α)} {pc : Pc α} (e : Ev α) (h : pc.SrcOk l) :
    pc.SrcOk (l ++ [e]) := by
  cases pc with
  | readCounter s x => cases s with
    | none => trivial
    | some s => exact Issued.mono e h
  | addCounter s x _ => cases s with
    | none => trivial
    | some s => exact Issued.mono e h
  | put s x _ => cases s with
    | none => trivial
    | some s => exact Issued.mono e h
  | _ => trivial

theorem taken_perm {s : St α} {l₁ l₂ : List (Pc α)} {pc : Pc α} (hs : s.acts = l₁ ++ pc :: l₂) :
    s.taken.Perm (issued s.log ++ (pc.pending ++ (l₁ ++ l₂).flatMap Pc.pending)) := by
  rw [St.taken, hs]
  apply List.Perm.append_left
  simp only [List.flatMap_append, List.flatMap_cons]
  rw [← List.append_assoc, ← List.append_assoc]
  exact List.Perm.append_right _ List.perm_append_comm


/-- An operation goes on without answering. -/
theorem Inv.internal {L : Lang} {s : St α} {l₁ l₂ : List (Pc α)} {pc pc' : Pc α} {c : Nat} {k : Bool}
    (i : Inv L s) (hs : s.acts = l₁ ++ pc :: l₂)
    (hc : (c = s.counter ∧ pc'.pending = pc.pending) ∨
      (c = s.counter + 2 ∧ pc.pending = [] ∧ pc'.pending = [s.counter] ∧ s.counter < 2 ^ 64 ∧
        pc.inside = true))
    (hk : L.lock = true → (pc'.inside = pc.inside ∧ k = s.locked) ∨
      (pc.inside = false ∧ pc'.inside = true ∧ s.locked = false ∧ k = true))
    (hsrc : pc'.SrcOk s.log) (hadd : pc'.AddOk L c) :
    Inv L { s with counter := c, locked := k, acts := l₁ ++ pc' :: l₂ } := by
  have hp := taken_perm hs
  have hp' := taken_perm (s := { s with counter := c, locked := k, acts := l₁ ++ pc' :: l₂ }) rfl
  have hmem : ∀ q, q ∈ l₁ ++ l₂ → q ∈ s.acts := by
    intro q hq; rw [hs]; simp only [List.mem_append, List.mem_cons] at hq ⊢
    rcases hq with h | h <;> simp [h]
  have hacts : ∀ q, q ∈ l₁ ++ pc' :: l₂ → q = pc' ∨ q ∈ l₁ ++ l₂ := by
    intro q hq; simp only [List.mem_append, List.mem_cons] at hq ⊢
    rcases hq with h | h | h <;> simp [h]
  constructor
  · show c % 2 = 1
    have := i.odd
    rcases hc with h | h <;> omega
  · intro hl
    have h1 := i.lock hl
    rw [hs] at h1
    have h2 := hk hl
    simp only [List.countP_append, List.countP_cons] at h1 ⊢
    rcases h2 with ⟨h2, rfl⟩ | ⟨h2, h3, h4, rfl⟩
    · rw [h2]; exact h1
    · rw [h2, h4] at h1; rw [h3]
      simp only [Bool.toNat_false, Bool.toNat_true, if_true, Bool.false_eq_true, if_false] at h1 ⊢
      omega
  · rw [hp'.nodup_iff]
    show (issued s.log ++ (pc'.pending ++ (l₁ ++ l₂).flatMap Pc.pending)).Nodup
    rcases hc with ⟨rfl, h⟩ | ⟨rfl, h1, h2, h3, _⟩
    · rw [h]; exact hp.nodup_iff.1 i.taken
    · have ht := hp.nodup_iff.1 i.taken
      have hlt : s.counter ∉ s.taken := fun hm => by have := i.takenOk _ hm; omega
      rw [hp.mem_iff] at hlt
      rw [h1, List.nil_append] at ht hlt
      rw [h2]
      have : (issued s.log ++ ([s.counter] ++ (l₁ ++ l₂).flatMap Pc.pending)).Perm
          (s.counter :: (issued s.log ++ (l₁ ++ l₂).flatMap Pc.pending)) := by
        simp
      rw [this.nodup_iff]
      exact List.nodup_cons.2 ⟨hlt, ht⟩
  · intro h hm
    rw [hp'.mem_iff] at hm
    rcases hc with ⟨rfl, he⟩ | ⟨rfl, h1, h2, h3, _⟩
    · apply i.takenOk; rw [hp.mem_iff, ← he]; exact hm
    · rw [h2] at hm
      simp only [List.mem_append, List.mem_singleton] at hm
      have : h = s.counter ∨ h ∈ s.taken := by
        rw [hp.mem_iff]
        simp only [List.mem_append]
        rcases hm with hm | hm | hm
        · exact .inr (.inl hm)
        · exact .inl hm
        · exact .inr (.inr (.inr hm))
      rcases this with rfl | hm
      · have := i.odd; exact ⟨this, by show _ < s.counter + 2; omega, h3⟩
      · have := i.takenOk _ hm
        exact ⟨this.1, by show _ < s.counter + 2; omega, this.2.2⟩
  · exact i.keys
  · exact i.map
  · exact i.good
  · exact i.removed
  · intro q hq
    rcases hacts q hq with rfl | h
    · exact hsrc
    · exact i.src q (hmem q h)
  · intro q hq
    rcases hacts q hq with rfl | h
    · exact hadd
    · have hq2 := i.add q (hmem q h)
      rcases hc with ⟨rfl, _⟩ | ⟨rfl, _, _, _, hin⟩
      · exact hq2
      · cases q with
        | addCounter a b d =>
          exfalso
          have hl := i.lock hq2.1
          rw [hs] at hl
          simp only [List.countP_append, List.countP_cons, hin, if_true] at hl
          have : 0 < (l₁ ++ l₂).countP Pc.inside := List.countP_pos_iff.2 ⟨_, h, rfl⟩
          rw [List.countP_append] at this
          cases hb : s.locked <;> simp [hb] at hl <;> omega
        | _ => trivial

/-- An operation answers. -/
theorem Inv.finish {L : Lang} {s : St α} {l₁ l₂ : List (Pc α)} {pc : Pc α} {m : List (Nat × α)}
    {e : Ev α} (i : Inv L s) (hs : s.acts = l₁ ++ pc :: l₂) (hin : pc.inside = true)
    (hok : Ok s.log e) (hkeys : (m.map (·.1)).Nodup)
    (hm : ∀ h x, (h, x) ∈ m ↔ Live (s.log ++ [e]) h x)
    (hp : pc.pending = issued [e]) :
    Inv L { s with map := m, locked := false, log := s.log ++ [e], acts := l₁ ++ l₂ } := by
  have hq := taken_perm hs
  have hmem : ∀ q, q ∈ l₁ ++ l₂ → q ∈ s.acts := by
    intro q hq; rw [hs]; simp only [List.mem_append, List.mem_cons] at hq ⊢
    rcases hq with h | h <;> simp [h]
  have ht : ({ s with map := m, locked := false, log := s.log ++ [e], acts := l₁ ++ l₂ } : St α).taken.Perm
      s.taken := by
    refine List.Perm.trans ?_ hq.symm
    rw [St.taken, hp]
    simp
  constructor
  · exact i.odd
  · intro hl
    have h1 := i.lock hl
    rw [hs] at h1
    simp only [List.countP_append, List.countP_cons, hin, if_true] at h1 ⊢
    cases hb : s.locked <;> simp only [hb, Bool.toNat_false, Bool.toNat_true] at h1 ⊢ <;> omega
  · exact ht.nodup_iff.2 i.taken
  · intro h hm; exact i.takenOk h (ht.mem_iff.1 hm)
  · exact hkeys
  · exact hm
  · exact .snoc _ _ i.good hok
  · rintro h ⟨x, hx⟩
    show h ∈ issued (s.log ++ [e])
    rw [issued_append, List.mem_append]
    rcases List.mem_append.1 hx with hx | hx
    · exact .inl (i.removed h ⟨x, hx⟩)
    · simp only [List.mem_singleton] at hx
      subst hx
      exact .inl (mem_issued.2 ⟨x, hok.1⟩)
  · intro q h; exact (i.src q (hmem q h)).mono e
  · intro q h; exact i.add q (hmem q h)

theorem live_iff_of_other {l : List (Ev α)} {e : Ev α} (h1 : issued [e] = [])
    (h2 : ∀ h x, e ≠ .removed h x) (h : Nat) (x : α) : Live (l ++ [e]) h x ↔ Live l h x := by
  have a : ∀ x, ¬ Issued [e] h x := fun x hx => by
    have := mem_issued.2 ⟨x, hx⟩; rw [h1] at this; simp at this
  simp only [Live, Issued, Removed, List.mem_append] at a ⊢
  have h2' : ∀ x, Ev.removed h x ∉ [e] := fun x hx => h2 h x (List.mem_singleton.1 hx).symm
  have a1 : ∀ x, Ev.inserted h x ∉ [e] := fun x hx => a x (.inl hx)
  have a2 : ∀ s x, Ev.cloned s h x ∉ [e] := fun s x hx => a x (.inr ⟨s, hx⟩)
  simp [h2', a1, a2]

theorem live_unique {L : Lang} {s : St α} (i : Inv L s) {h : Nat} {x y : α} (hx : Live s.log h x)
    (hy : Live s.log h y) : x = y := by
  have h1 := (i.map h x).2 hx
  have h2 := (i.map h y).2 hy
  have hk := i.keys
  generalize s.map = m at *
  induction m with
  | nil => cases h1
  | cons p m ih =>
    simp only [List.map_cons, List.nodup_cons] at hk
    rcases List.mem_cons.1 h1 with rfl | h1 <;> rcases List.mem_cons.1 h2 with h2 | h2
    · simp only [Prod.mk.injEq, true_and] at h2; exact h2.symm
    · exact absurd (List.mem_map.2 ⟨_, h2, rfl⟩) hk.1
    · exact absurd (List.mem_map.2 ⟨_, h1, by rw [← h2]⟩) hk.1
    · exact ih h1 h2 hk.2

theorem step_counter {L : Lang} {s s' : St α} {pc : Pc α} {pc' : Option (Pc α)}
    (h : step L s pc = some (pc', s')) : s.counter ≤ s'.counter := by
  cases pc <;> simp only [step, St.finish] at h <;> (repeat' split at h) <;>
    simp only [Option.some.injEq, Prod.mk.injEq, reduceCtorEq] at h <;> rw [← h.2] <;> simp

theorem Inv.run {L : Lang} (hL : L.Exact) {s s' : St α} {l₁ l₂ : List (Pc α)} {pc : Pc α}
    {pc' : Option (Pc α)} (i : Inv L s) (hs : s.acts = l₁ ++ pc :: l₂)
    (h : step L s pc = some (pc', s')) (hb : s'.counter ≤ 2 ^ 64 + 1) :
    Inv L { s' with acts := l₁ ++ pc'.toList ++ l₂ } := by
  have hmem : pc ∈ s.acts := by rw [hs]; simp
  have hinv : ∀ h, find s.map h = none → ∀ x, ¬ Live s.log h x := fun h hf x hl =>
    find_none hf x ((i.map h x).2 hl)
  have hother : ∀ e : Ev α, issued [e] = [] → (∀ h x, e ≠ .removed h x) → ∀ h x,
      (h, x) ∈ s.map ↔ Live (s.log ++ [e]) h x := fun e h1 h2 h x => by
    rw [live_iff_of_other h1 h2]; exact i.map h x
  cases pc with
  | begin op =>
    simp only [step] at h
    split at h
    · split at h <;> simp only [Option.some.injEq, Prod.mk.injEq, reduceCtorEq] at h
      obtain ⟨rfl, rfl⟩ := h
      rename_i hl hk
      simp only [Option.toList_some, List.append_assoc, List.singleton_append]
      refine i.internal hs (.inl ⟨rfl, ?_⟩) (fun _ => .inr ⟨rfl, ?_, by simpa using hk, rfl⟩) ?_ ?_ <;>
        cases op <;> first | rfl | trivial
    · simp only [Option.some.injEq, Prod.mk.injEq] at h
      obtain ⟨rfl, rfl⟩ := h
      rename_i hl
      simp only [Option.toList_some, List.append_assoc, List.singleton_append]
      refine i.internal (k := s.locked) hs (.inl ⟨rfl, ?_⟩) (fun h => absurd h hl) ?_ ?_ <;>
        cases op <;> first | rfl | trivial
  | cloneLookup h =>
    simp only [step, St.finish] at h
    split at h <;> simp only [Option.some.injEq, Prod.mk.injEq] at h <;> obtain ⟨rfl, rfl⟩ := h
    · rename_i x hf
      simp only [Option.toList_some, List.append_assoc, List.singleton_append]
      exact i.internal hs (.inl ⟨rfl, rfl⟩) (fun _ => .inl ⟨rfl, rfl⟩)
        ((i.map _ _).1 (find_mem hf)).1 trivial
    · rename_i hf
      simp only [Option.toList_none, List.append_nil]
      exact i.finish hs rfl (hinv _ hf) i.keys (hother _ rfl (by simp)) rfl
  | readCounter src x =>
    have hsrc := i.src _ hmem
    simp only [step] at h
    split at h
    · cases h
    · rename_i h0 hh
      split at h <;> simp only [Option.some.injEq, Prod.mk.injEq] at h <;> obtain ⟨rfl, rfl⟩ := h
      · rename_i hl
        simp only [Option.toList_some, List.append_assoc, List.singleton_append]
        exact i.internal hs (.inl ⟨rfl, rfl⟩) (fun _ => .inl ⟨rfl, rfl⟩)
          (by cases src <;> exact hsrc) ⟨hl, hh⟩
      · rename_i hl
        simp only [Option.toList_some, List.append_assoc, List.singleton_append]
        have hb : s.counter + 2 ≤ 2 ^ 64 + 1 := hb
        have hlt : s.counter < 2 ^ 64 := by omega
        have := hL _ _ hlt hh
        subst this
        exact i.internal hs (.inr ⟨rfl, rfl, rfl, hlt, rfl⟩) (fun h => absurd h hl)
          (by cases src <;> exact hsrc) trivial
  | addCounter src x h0 =>
    have hsrc := i.src _ hmem
    have hadd := i.add _ hmem
    simp only [step, Option.some.injEq, Prod.mk.injEq] at h
    obtain ⟨rfl, rfl⟩ := h
    simp only [Option.toList_some, List.append_assoc, List.singleton_append]
    have hb : s.counter + 2 ≤ 2 ^ 64 + 1 := hb
    have hlt : s.counter < 2 ^ 64 := by omega
    have := hL _ _ hlt hadd.2
    subst this
    exact i.internal hs (.inr ⟨rfl, rfl, rfl, hlt, rfl⟩) (fun _ => .inl ⟨rfl, rfl⟩)
      (by cases src <;> exact hsrc) trivial
  | put src x h0 =>
    have hsrc := i.src _ hmem
    simp only [step, St.finish, Option.some.injEq, Prod.mk.injEq] at h
    obtain ⟨rfl, rfl⟩ := h
    simp only [Option.toList_none, List.append_nil]
    have hnot : h0 ∉ issued s.log := by
      have := (taken_perm hs).nodup_iff.1 i.taken
      intro hm
      exact (List.nodup_append.1 this).2.2 h0 hm h0 (by simp [Pc.pending]) rfl
    have hrem : ¬ Removed s.log h0 := fun hr => hnot (i.removed _ hr)
    have hni : ∀ y, ¬ Issued s.log h0 y := fun y hy => hnot (mem_issued.2 ⟨y, hy⟩)
    refine i.finish hs rfl ?_ (nodup_store i.keys) ?_ ?_
    · cases src with
      | none => exact ⟨hnot, hrem⟩
      | some a => exact ⟨hnot, hrem, hsrc⟩
    · intro k y
      have hm := i.map k y
      simp only [Live, Issued, Removed] at hm hni hrem
      simp only [store, List.mem_cons, mem_del, hm]
      have h2 : (h0, x) = ((k, y) : Nat × α) ↔ k = h0 ∧ y = x := by
        simp only [Prod.mk.injEq]; constructor <;> rintro ⟨rfl, rfl⟩ <;> exact ⟨rfl, rfl⟩
      simp only [Prod.mk.injEq]
      cases src with
      | none =>
        simp only [issueEv, Live, Issued, Removed, List.mem_append, List.mem_singleton,
          reduceCtorEq, or_false, Ev.inserted.injEq]
        by_cases hk : k = h0
        · subst hk
          have := hni y
          simp_all
        · simp [hk]
      | some a =>
        simp only [issueEv, Live, Issued, Removed, List.mem_append, List.mem_singleton,
          reduceCtorEq, or_false, Ev.cloned.injEq]
        by_cases hk : k = h0
        · subst hk
          have := hni y
          simp_all
        · simp [hk]
    · cases src <;> rfl
  | lookup h =>
    simp only [step, St.finish] at h
    split at h <;> simp only [Option.some.injEq, Prod.mk.injEq] at h <;> obtain ⟨rfl, rfl⟩ := h <;>
      simp only [Option.toList_none, List.append_nil]
    · rename_i x hf
      exact i.finish hs rfl ((i.map _ _).1 (find_mem hf)) i.keys (hother _ rfl (by simp)) rfl
    · rename_i hf
      exact i.finish hs rfl (hinv _ hf) i.keys (hother _ rfl (by simp)) rfl
  | delete h0 =>
    simp only [step, St.finish] at h
    split at h <;> simp only [Option.some.injEq, Prod.mk.injEq] at h <;> obtain ⟨rfl, rfl⟩ := h <;>
      simp only [Option.toList_none, List.append_nil]
    · rename_i x hf
      refine i.finish hs rfl ((i.map _ _).1 (find_mem hf)) (nodup_del i.keys) ?_ rfl
      intro k y
      have hm := i.map k y
      simp only [Live, Issued, Removed] at hm
      rw [mem_del, hm]
      simp only [Live, Issued, Removed, List.mem_append, List.mem_singleton, reduceCtorEq, or_false,
        Ev.removed.injEq]
      constructor
      · rintro ⟨⟨h1, h2⟩, h3⟩
        exact ⟨h1, fun ⟨z, hz⟩ => hz.elim (fun h => h2 ⟨z, h⟩) fun h => h3 h.1⟩
      · rintro ⟨h1, h2⟩
        exact ⟨⟨h1, fun ⟨z, hz⟩ => h2 ⟨z, .inl hz⟩⟩, fun h => h2 ⟨x, .inr ⟨h, rfl⟩⟩⟩
    · rename_i hf
      exact i.finish hs rfl (hinv _ hf) i.keys (hother _ rfl (by simp)) rfl

theorem Inv.start {L : Lang} {s : St α} (i : Inv L s) (op : Op α) :
    Inv L { s with acts := s.acts ++ [.begin op] } := by
  have ht : ({ s with acts := s.acts ++ [.begin op] } : St α).taken = s.taken := by
    simp [St.taken, Pc.pending]
  constructor
  · exact i.odd
  · intro h; simpa [List.countP_append, List.countP_cons, Pc.inside] using i.lock h
  · rw [ht]; exact i.taken
  · rw [ht]; exact i.takenOk
  · exact i.keys
  · exact i.map
  · exact i.good
  · exact i.removed
  · intro q hq
    rcases List.mem_append.1 hq with h | h
    · exact i.src q h
    · simp only [List.mem_singleton] at h; subst h; trivial
  · intro q hq
    rcases List.mem_append.1 hq with h | h
    · exact i.add q h
    · simp only [List.mem_singleton] at h; subst h; trivial

theorem Reach.inv {L : Lang} (hL : L.Exact) {s : St α} (h : Reach L s) :
    s.counter ≤ 2 ^ 64 + 1 → Inv L s := by
  induction h with
  | init => exact fun _ => .init L
  | step s s' _ hs ih =>
    cases hs with
    | start op => exact fun hb => (ih hb).start op
    | run l₁ l₂ pc pc' s' hacts h =>
      exact fun hb => (ih (Nat.le_trans (step_counter h) hb)).run hL hacts h hb

end Verif.HandleMap
