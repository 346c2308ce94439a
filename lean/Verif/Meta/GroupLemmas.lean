import Verif.Meta.GroupSpec
namespace Verif.Meta

theorem GroupMap.get_insert (m : GroupMap) (k c : String) (g : Group) :
    (m.insert k g).get c = if c = k then some g else m.get c := by
  unfold GroupMap.insert GroupMap.get
  by_cases h : c = k
  · subst h; simp
  · have hk : ¬ k = c := fun e => h e.symm
    simp only [List.find?_cons, hk, decide_false, if_neg h]
    congr 1
    induction m with
    | nil => rfl
    | cons x m ih =>
      by_cases hx : x.1 = k
      · have hc : ¬ x.1 = c := fun e => h (by rw [← e, hx])
        rw [List.filter_cons_of_neg (by simp [hx])]
        rw [ih, List.find?_cons_of_neg (by simpa using hc)]
      · rw [List.filter_cons_of_pos (by simp [hx])]
        simp only [List.find?_cons]
        split
        · rfl
        · exact ih

theorem groupOne_ok {m m' : GroupMap} {i : Metadata} (h : groupOne m i = .ok m') (c : String) :
    m'.get c = (m.get c).map fun g => { g with items := (itemsOf c [i]).reverse ++ g.items } := by
  by_cases hn : grouped i = false
  · cases i <;> simp [grouped] at hn
    simp only [groupOne, Res.ok.injEq] at h
    subst h
    cases m.get c <;> simp [itemsOf, grouped]
  · simp only [Bool.not_eq_false] at hn
    have e : groupOne m i = match i.modulePath with
        | none => .panic
        | some path =>
          match m.get (crateName path) with
          | none => .err
          | some g => if i ∈ g.items then .err else .ok (m.insert (crateName path) (g.add i)) := by
      cases i <;> first | rfl | simp [grouped] at hn
    rw [e] at h
    cases hp : i.modulePath with
    | none => simp [hp] at h
    | some path =>
      cases hg : m.get (crateName path) with
      | none => simp [hp, hg] at h
      | some g =>
        simp only [hp, hg] at h
        split at h
        · cases h
        · rename_i hi
          cases h
          rw [GroupMap.get_insert]
          by_cases hc : c = crateName path
          · subst hc
            simp [hg, itemsOf, hn, crateOf, hp, Group.add, hi]
          · have : ¬ crateName path = c := fun e => hc e.symm
            cases m.get c <;> simp [hc, itemsOf, hn, crateOf, hp, this]

theorem itemsOf_cons (c : String) (i : Metadata) (is : List Metadata) :
    itemsOf c (i :: is) = itemsOf c [i] ++ itemsOf c is := by
  unfold itemsOf
  rw [← List.filter_append]
  rfl

theorem groupMetadata_ok {m m' : GroupMap} {is : List Metadata} (h : groupMetadata m is = .ok m')
    (c : String) :
    m'.get c = (m.get c).map fun g => { g with items := (itemsOf c is).reverse ++ g.items } := by
  induction is generalizing m with
  | nil =>
    simp only [groupMetadata, Res.ok.injEq] at h
    subst h
    cases m.get c <;> simp [itemsOf]
  | cons i is ih =>
    unfold groupMetadata at h
    split at h
    · rename_i m1 e
      rw [ih h, groupOne_ok e c, itemsOf_cons c i is]
      cases m.get c <;> simp
    · cases h
    · cases h

theorem createFrom (m : GroupMap) (is : List Metadata) (c : String) :
    ((is.filterMap declares).foldl (fun m kg => m.insert kg.1 kg.2) m).get c =
      match (namespacesOf c is).getLast? with
      | some n => some { crateName := c, namespace_ := n, items := [] }
      | none => m.get c := by
  induction is generalizing m with
  | nil => rfl
  | cons i is ih =>
    have key : ∀ k n, declares i = some (k, { crateName := k, namespace_ := n, items := [] }) →
        namespacesOf c (i :: is) = (if k = c then n :: namespacesOf c is else namespacesOf c is) →
        (((i :: is).filterMap declares).foldl (fun m kg => m.insert kg.1 kg.2) m).get c =
        match (namespacesOf c (i :: is)).getLast? with
        | some n => some { crateName := c, namespace_ := n, items := [] }
        | none => m.get c := by
      intro k n hd hn
      rw [List.filterMap_cons_some hd, List.foldl_cons, ih, hn, GroupMap.get_insert]
      by_cases hk : k = c
      · subst hk
        simp only [if_true]
        cases hl : namespacesOf k is with
        | nil => rfl
        | cons x xs =>
          have : ∃ y, (x :: xs).getLast? = some y := ⟨_, List.getLast?_eq_some_getLast (by simp)⟩
          obtain ⟨y, hy⟩ := this
          rw [hy, List.getLast?_cons_cons, hy]
      · have : ¬ c = k := fun e => hk e.symm
        simp [hk, this]
    cases i with
    | namespace_ k n => exact key k n rfl rfl
    | udlFile k n s => exact key k n rfl rfl
    | _ => exact ih m

theorem createGroups_get (is : List Metadata) (c : String) :
    (createGroups is).get c =
      ((namespacesOf c is).getLast?).map fun n => { crateName := c, namespace_ := n, items := [] } := by
  unfold createGroups
  rw [createFrom]
  cases (namespacesOf c is).getLast? <;> rfl

/-- When one more item is accepted. -/
theorem groupOne_iff (m : GroupMap) (i : Metadata) :
    (∃ m', groupOne m i = .ok m') ↔
      (grouped i = true → ∃ c g, crateOf i = some c ∧ m.get c = some g ∧ i ∉ g.items) := by
  by_cases hn : grouped i = false
  · cases i <;> simp [grouped] at hn
    simp [groupOne, grouped]
  · simp only [Bool.not_eq_false] at hn
    have e : groupOne m i = match i.modulePath with
        | none => .panic
        | some path =>
          match m.get (crateName path) with
          | none => .err
          | some g => if i ∈ g.items then .err else .ok (m.insert (crateName path) (g.add i)) := by
      cases i <;> first | rfl | simp [grouped] at hn
    rw [e]
    cases hp : i.modulePath with
    | none => simp [crateOf, hp, hn]
    | some path =>
      cases hg : m.get (crateName path) with
      | none => simp [crateOf, hp, hg, hn]
      | some g =>
        by_cases hi : i ∈ g.items <;> simp [crateOf, hp, hg, hi, hn]

theorem groupMetadata_iff (m : GroupMap) (is : List Metadata) :
    (∃ m', groupMetadata m is = .ok m') ↔
      (is.filter grouped).Nodup ∧ ∀ i ∈ is, grouped i = true →
        ∃ c g, crateOf i = some c ∧ m.get c = some g ∧ i ∉ g.items := by
  induction is generalizing m with
  | nil => simp [groupMetadata]
  | cons i is ih =>
    unfold groupMetadata
    cases h1 : groupOne m i with
    | err =>
      have := groupOne_iff m i
      simp only [h1, reduceCtorEq, exists_false, false_iff] at this ⊢
      intro hx
      exact this (hx.2 i (by simp))
    | panic =>
      have := groupOne_iff m i
      simp only [h1, reduceCtorEq, exists_false, false_iff] at this ⊢
      intro hx
      exact this (hx.2 i (by simp))
    | ok m1 =>
      have hi := (groupOne_iff m i).mp ⟨m1, h1⟩
      have hget := groupOne_ok h1
      rw [ih]
      constructor
      · rintro ⟨hnd, hall⟩
        have hall' : ∀ j ∈ is, grouped j = true →
            ∃ c g, crateOf j = some c ∧ m.get c = some g ∧ j ∉ g.items ∧ (grouped i = true → j ≠ i) := by
          intro j hj hgj
          obtain ⟨c, g, h2, h3, h4⟩ := hall j hj hgj
          rw [hget c] at h3
          cases hm : m.get c with
          | none => simp [hm] at h3
          | some g0 =>
            simp only [hm, Option.map_some, Option.some.injEq] at h3
            subst h3
            simp only [List.mem_append, List.mem_reverse, not_or] at h4
            refine ⟨c, g0, h2, hm, h4.2, fun hgi e => ?_⟩
            subst e
            exact h4.1 (by simp [itemsOf, hgj, h2])
        refine ⟨?_, ?_⟩
        · by_cases hgi : grouped i = true
          · rw [List.filter_cons_of_pos hgi, List.nodup_cons]
            refine ⟨fun hmem => ?_, hnd⟩
            obtain ⟨hm1, hm2⟩ := List.mem_filter.mp hmem
            obtain ⟨-, -, -, -, -, hne⟩ := hall' i hm1 hm2
            exact hne hgi rfl
          · rw [List.filter_cons_of_neg (by simpa using hgi)]; exact hnd
        · intro j hj hgj
          rcases List.mem_cons.mp hj with rfl | hj
          · exact hi hgj
          · obtain ⟨c, g, h2, h3, h4, -⟩ := hall' j hj hgj
            exact ⟨c, g, h2, h3, h4⟩
      · rintro ⟨hnd, hall⟩
        have hnd' : (is.filter grouped).Nodup := by
          by_cases hgi : grouped i = true
          · rw [List.filter_cons_of_pos hgi, List.nodup_cons] at hnd; exact hnd.2
          · rw [List.filter_cons_of_neg (by simpa using hgi)] at hnd; exact hnd
        refine ⟨hnd', fun j hj hgj => ?_⟩
        obtain ⟨c, g, h2, h3, h4⟩ := hall j (by simp [hj]) hgj
        refine ⟨c, _, h2, by rw [hget c, h3]; rfl, ?_⟩
        simp only [List.mem_append, List.mem_reverse, not_or]
        refine ⟨fun hx => ?_, h4⟩
        simp only [itemsOf, List.mem_filter, List.mem_singleton] at hx
        obtain ⟨rfl, hx⟩ := hx
        rw [List.filter_cons_of_pos hgj, List.nodup_cons] at hnd
        exact hnd.1 (List.mem_filter.mpr ⟨hj, hgj⟩)

theorem groupMetadata_no_panic (m : GroupMap) (is : List Metadata)
    (h : ∀ i ∈ is, i.modulePath ≠ none) : groupMetadata m is ≠ .panic := by
  induction is generalizing m with
  | nil => simp [groupMetadata]
  | cons i is ih =>
    unfold groupMetadata
    split
    · exact ih _ fun j hj => h j (by simp [hj])
    · simp
    · rename_i hp
      exfalso
      have hi := h i (by simp)
      cases i <;> simp only [groupOne, reduceCtorEq] at hp <;> revert hp <;> split <;>
        first
        | (intro hp; exact hi ‹_›)
        | (split <;> (try split) <;> simp)

end Verif.Meta
