import Verif.Gen.Assemble
/-
Lemmas on the maps and on sorting.
-/
namespace Verif.Gen.Assemble
open Verif.Meta

section maps
variable {κ ν : Type} [DecidableEq κ]

theorem get_nil (k : κ) : get ([] : List (κ × ν)) k = none := rfl

theorem get_cons (m : List (κ × ν)) (e : κ × ν) (k : κ) :
    get (e :: m) k = if e.1 = k then some e.2 else get m k := by
  by_cases h : e.1 = k <;> simp [get, List.find?_cons, h]

theorem get_eq_none {m : List (κ × ν)} {k : κ} : get m k = none ↔ ∀ v, (k, v) ∉ m := by
  induction m with
  | nil => simp [get_nil]
  | cons e m ih =>
    rw [get_cons]
    by_cases h : e.1 = k
    · simp only [h, if_true, reduceCtorEq, false_iff]
      intro hn
      exact hn e.2 (by rw [← h]; simp)
    · simp only [h, if_false, ih, List.mem_cons, not_or]
      constructor
      · intro hn v
        exact ⟨fun he => h (by rw [← he]), hn v⟩
      · intro hn v
        exact (hn v).2

theorem mem_of_get {m : List (κ × ν)} {k : κ} {v : ν} (h : get m k = some v) : (k, v) ∈ m := by
  induction m with
  | nil => simp [get_nil] at h
  | cons e m ih =>
    rw [get_cons] at h
    split at h
    · rename_i he
      cases h
      rw [← he]
      simp
    · exact List.mem_cons_of_mem _ (ih h)

theorem get_of_mem {m : List (κ × ν)} (hn : (m.map (·.1)).Nodup) {k : κ} {v : ν}
    (h : (k, v) ∈ m) : get m k = some v := by
  induction m with
  | nil => simp at h
  | cons e m ih =>
    rw [get_cons]
    simp only [List.map_cons, List.nodup_cons] at hn
    rcases List.mem_cons.1 h with rfl | h
    · simp
    · have : e.1 ≠ k := by
        rintro rfl
        exact hn.1 (List.mem_map.2 ⟨_, h, rfl⟩)
      simp [this, ih hn.2 h]

theorem get_iff {m : List (κ × ν)} (hn : (m.map (·.1)).Nodup) {k : κ} {v : ν} :
    get m k = some v ↔ (k, v) ∈ m := ⟨mem_of_get, get_of_mem hn⟩

theorem put_nodup {m : List (κ × ν)} (hn : (m.map (·.1)).Nodup) (k : κ) (v : ν) :
    ((put m k v).map (·.1)).Nodup := by
  simp only [put, List.map_cons, List.nodup_cons]
  refine ⟨?_, ?_⟩
  · simp only [List.mem_map, List.mem_filter, not_exists, not_and]
    rintro e ⟨_, he⟩ rfl
    simp at he
  · exact hn.sublist (List.filter_sublist.map _)

theorem mem_put {m : List (κ × ν)} {k : κ} {v : ν} {e : κ × ν} :
    e ∈ put m k v ↔ e = (k, v) ∨ (e ∈ m ∧ e.1 ≠ k) := by
  simp [put]

theorem get_put (m : List (κ × ν)) (k k' : κ) (v : ν) :
    get (put m k v) k' = if k = k' then some v else get m k' := by
  rw [put, get_cons]
  by_cases h : k = k'
  · simp [h]
  · simp only [h, if_false]
    induction m with
    | nil => rfl
    | cons e m ih =>
      by_cases he : e.1 = k
      · have : (e :: m).filter (fun x => decide (x.1 ≠ k)) = m.filter (fun x => decide (x.1 ≠ k)) := by
          simp [he]
        rw [this, ih, get_cons]
        have : e.1 ≠ k' := fun h' => h (he.symm.trans h')
        simp [this]
      · have : (e :: m).filter (fun x => decide (x.1 ≠ k)) =
            e :: m.filter (fun x => decide (x.1 ≠ k)) := by
          simp [he]
        rw [this, get_cons, get_cons, ih]

variable [DecidableEq ν]

theorem insertUnique_mem {m m' : List (κ × ν)} {k : κ} {v : ν} (h : insertUnique m k v = some m')
    {e : κ × ν} : e ∈ m' ↔ e ∈ m ∨ e = (k, v) := by
  rw [insertUnique] at h
  split at h
  · cases h
    simp
  · rename_i old hg
    split at h
    · cases h
    · rename_i ho
      cases h
      have ho : old = v := by simpa using ho
      subst ho
      have := mem_of_get hg
      constructor
      · exact .inl
      · rintro (h | rfl)
        · exact h
        · exact this

theorem insertUnique_nodup {m m' : List (κ × ν)} {k : κ} {v : ν} (h : insertUnique m k v = some m')
    (hn : (m.map (·.1)).Nodup) : (m'.map (·.1)).Nodup := by
  rw [insertUnique] at h
  split at h
  · rename_i hg
    cases h
    rw [get_eq_none] at hg
    rw [List.map_append, List.nodup_append]
    refine ⟨hn, by simp, ?_⟩
    intro a ha b hb
    simp only [List.mem_map] at ha
    obtain ⟨e, he, rfl⟩ := ha
    simp only [List.map_cons, List.map_nil, List.mem_singleton] at hb
    subst hb
    intro hk
    exact hg e.2 (by rw [← hk]; exact he)
  · split at h
    · cases h
    · cases h
      exact hn

theorem insertUnique_isSome {m : List (κ × ν)} (hn : (m.map (·.1)).Nodup) {k : κ} {v : ν} :
    (insertUnique m k v).isSome ↔ ∀ v', (k, v') ∈ m → v' = v := by
  rw [insertUnique]
  split
  · rename_i hg
    rw [get_eq_none] at hg
    simp only [Option.isSome_some, true_iff]
    exact fun v' h => absurd h (hg v')
  · rename_i old hg
    have hm := mem_of_get hg
    split
    · rename_i ho
      simp only [Option.isSome_none, Bool.false_eq_true, false_iff]
      exact fun h => ho (h old hm)
    · rename_i ho
      simp only [Option.isSome_some, true_iff]
      intro v' h
      have := (get_of_mem hn h).symm.trans hg
      cases this
      simpa using ho

end maps

section sort
variable {α : Type} {le : α → α → Bool}

theorem insertBy_perm (x : α) : ∀ l : List α, (insertBy le x l).Perm (x :: l)
  | [] => .refl _
  | y :: ys => by
    rw [insertBy]
    split
    · exact .refl _
    · exact ((insertBy_perm x ys).cons y).trans (.swap x y ys)

theorem sortBy_perm : ∀ l : List α, (sortBy le l).Perm l
  | [] => .refl _
  | x :: l => (insertBy_perm x _).trans ((sortBy_perm l).cons x)

theorem mem_sortBy {l : List α} {x : α} : x ∈ sortBy le l ↔ x ∈ l := (sortBy_perm l).mem_iff

theorem insertBy_sorted (ht : ∀ a b c, le a b → le b c → le a c) (hto : ∀ a b, le a b ∨ le b a)
    (x : α) : ∀ l : List α, l.Pairwise (fun a b => le a b = true) →
      (insertBy le x l).Pairwise (fun a b => le a b = true)
  | [], _ => by simp [insertBy]
  | y :: ys, h => by
    have p := List.pairwise_cons.1 h
    rw [insertBy]
    split
    · rename_i hxy
      refine List.pairwise_cons.2 ⟨?_, h⟩
      intro z hz
      rcases List.mem_cons.1 hz with rfl | hz
      · exact hxy
      · exact ht _ _ _ hxy (p.1 z hz)
    · rename_i hxy
      refine List.pairwise_cons.2 ⟨?_, insertBy_sorted ht hto x ys p.2⟩
      intro z hz
      rcases List.mem_cons.1 ((insertBy_perm x ys).mem_iff.1 hz) with rfl | hz
      · exact (hto y z).resolve_right hxy
      · exact p.1 z hz

theorem sortBy_sorted (ht : ∀ a b c, le a b → le b c → le a c) (hto : ∀ a b, le a b ∨ le b a) :
    ∀ l : List α, (sortBy le l).Pairwise (fun a b => le a b = true)
  | [] => by simp [sortBy]
  | x :: l => insertBy_sorted ht hto x _ (sortBy_sorted ht hto l)

theorem sortBy_unique (ht : ∀ a b c, le a b → le b c → le a c) (hto : ∀ a b, le a b ∨ le b a)
    {l l' : List α} (hp : l.Perm l') (ha : ∀ a ∈ l, ∀ b ∈ l, le a b → le b a → a = b) :
    sortBy le l = sortBy le l' := by
  refine List.Perm.eq_of_pairwise (le := fun a b => le a b = true) ?_ (sortBy_sorted ht hto l)
    (sortBy_sorted ht hto l') (((sortBy_perm l).trans hp).trans (sortBy_perm l').symm)
  intro a b h1 h2
  exact ha a (mem_sortBy.1 h1) b (hp.mem_iff.2 (mem_sortBy.1 h2))

end sort

/-! ### The order of keys -/

theorem strs_trans {a b c : List String} (h1 : a ≤ b) (h2 : b ≤ c) : a ≤ c := List.le_trans h1 h2

theorem keyLe_trans (a b c : Key × Metadata) (h1 : keyLe a b) (h2 : keyLe b c) : keyLe a c := by
  simp only [keyLe, decide_eq_true_eq] at *
  exact List.le_trans h1 h2

theorem keyLe_total (a b : Key × Metadata) : keyLe a b ∨ keyLe b a := by
  simp only [keyLe, decide_eq_true_eq]
  exact List.le_total _ _

theorem keyLe_antisymm {a b : Key × Metadata} (hk : a.1.kind = b.1.kind) (h1 : keyLe a b)
    (h2 : keyLe b a) : a.1 = b.1 := by
  simp only [keyLe, decide_eq_true_eq] at *
  have h := List.le_antisymm h1 h2
  obtain ⟨⟨k, c, p, n⟩, i⟩ := a
  obtain ⟨⟨k', c', p', n'⟩, i'⟩ := b
  simp only [List.cons.injEq] at h
  obtain ⟨h1, h2, h3⟩ := h
  simp_all

/-! ### Types and their keys -/

theorem implKey_inj {a b : Impl} (h : implKey a = implKey b) : a = b := by
  rcases a with _ | (_ | _ | _) <;> rcases b with _ | (_ | _ | _) <;> first | rfl | (simp [implKey] at h)

theorem tyKey_append : ∀ (a b : MTy) (x y : List String), tyKey a ++ x = tyKey b ++ y → a = b ∧ x = y := by
  intro a
  induction a with
  | box t ih | optional t ih | sequence t ih | set t ih =>
    intro b x y h
    cases b <;> simp [tyKey] at h
    have := ih _ _ _ h
    simp [this]
  | map k v ihk ihv =>
    intro b x y h
    cases b <;> simp [tyKey] at h
    have h1 := ihk _ _ _ h
    have h2 := ihv _ _ _ h1.2
    simp [h1.1, h2]
  | custom m n t ih =>
    intro b x y h
    cases b <;> simp [tyKey] at h
    have := ih _ _ _ h.2.2
    simp [this, h.1, h.2.1]
  | object m n i =>
    intro b x y h
    cases b <;> simp [tyKey] at h
    simp [h.1, h.2.1, implKey_inj h.2.2.1, h.2.2.2]
  | record m n | enum m n | callbackInterface m n =>
    intro b x y h
    cases b <;> simp [tyKey] at h
    simp [h]
  | _ =>
    intro b x y h
    cases b <;> simp [tyKey] at h
    simp [h]

theorem tyKey_inj {a b : MTy} (h : tyKey a = tyKey b) : a = b :=
  (tyKey_append a b [] [] (by simpa using h)).1

/-- A list without repetitions after a map. -/
theorem eq_of_map_nodup {α β : Type} {f : α → β} : ∀ {l : List α}, (l.map f).Nodup →
    ∀ {a b : α}, a ∈ l → b ∈ l → f a = f b → a = b
  | x :: l, hn, a, b, ha, hb, h => by
    simp only [List.map_cons, List.nodup_cons] at hn
    rcases List.mem_cons.1 ha with rfl | ha' <;> rcases List.mem_cons.1 hb with rfl | hb'
    · rfl
    · exact absurd (List.mem_map.2 ⟨b, hb', h.symm⟩) hn.1
    · exact absurd (List.mem_map.2 ⟨a, ha', h⟩) hn.1
    · exact eq_of_map_nodup hn.2 ha' hb' h

end Verif.Gen.Assemble
