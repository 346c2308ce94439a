import Verif.Abi.Spec
namespace Verif.Abi
open Verif.Meta

theorem UInt32.not_lt_self (a : UInt32) : ¬ a < a := by
  rw [UInt32.lt_iff_toNat_lt]; omega

/-- Ordered by index, all different. -/
abbrev Ordered (l : List Indexed) : Prop := l.Pairwise (·.1 < ·.1)

theorem ordered_unique : ∀ (l1 l2 : List Indexed), Ordered l1 → Ordered l2 →
    (∀ x, x ∈ l1 ↔ x ∈ l2) → l1 = l2
  | [], [], _, _, _ => rfl
  | [], b :: l2, _, _, h => absurd ((h b).2 (by simp)) (by simp)
  | a :: l1, [], _, _, h => absurd ((h a).1 (by simp)) (by simp)
  | a :: l1, b :: l2, h1, h2, h => by
    have p1 := List.pairwise_cons.1 h1
    have p2 := List.pairwise_cons.1 h2
    have hab : a = b := by
      have ha := (h a).1 (by simp)
      have hb := (h b).2 (by simp)
      rcases List.mem_cons.1 ha with e | ha
      · exact e
      rcases List.mem_cons.1 hb with e | hb
      · exact e.symm
      have := p1.1 b hb
      have := p2.1 a ha
      rw [UInt32.lt_iff_toNat_lt] at *
      omega
    subst hab
    congr 1
    refine ordered_unique l1 l2 p1.2 p2.2 fun x => ?_
    have hx := h x
    constructor
    · intro hm
      rcases List.mem_cons.1 (hx.1 (by simp [hm])) with e | h'
      · subst e; exact absurd (p1.1 x hm) (UInt32.not_lt_self _)
      · exact h'
    · intro hm
      rcases List.mem_cons.1 (hx.2 (by simp [hm])) with e | h'
      · subst e; exact absurd (p2.1 x hm) (UInt32.not_lt_self _)
      · exact h'

/-- The methods with their positions. -/
def indexed (fs : List MFn) : List Indexed := fs.mapIdx fun i f => (UInt32.ofNat i, f)

theorem toNat_ofNat {i : Nat} (h : i < 2 ^ 32) : (UInt32.ofNat i).toNat = i := by
  simp [UInt32.toNat_ofNat']; omega

theorem indexed_ordered {fs : List MFn} (h : fs.length ≤ 2 ^ 32) : Ordered (indexed fs) := by
  rw [Ordered, List.pairwise_iff_getElem]
  intro i j hi hj hij
  simp only [indexed, List.length_mapIdx] at hi hj
  simp only [indexed, List.getElem_mapIdx, UInt32.lt_iff_toNat_lt]
  rw [toNat_ofNat (by omega), toNat_ofNat (by omega)]
  exact hij

theorem mem_indexed {fs : List MFn} (h : fs.length ≤ 2 ^ 32) (i : UInt32) (f : MFn) :
    (i, f) ∈ indexed fs ↔ fs[i.toNat]? = some f := by
  simp only [indexed, List.mem_mapIdx, Prod.mk.injEq, List.getElem?_eq_some_iff]
  constructor
  · rintro ⟨j, hj, rfl, rfl⟩
    rw [toNat_ofNat (by omega)]
    exact ⟨hj, rfl⟩
  · rintro ⟨hi, rfl⟩
    exact ⟨i.toNat, hi, by simp, rfl⟩

/-! ### Insertion into the set -/

theorem mem_setInsert {tie : MFn → MFn → Bool} {x y : Indexed} :
    ∀ {l : List Indexed}, y ∈ setInsert tie x l ↔ y = x ∨ y ∈ l
  | [] => by simp [setInsert]
  | z :: l => by
    simp only [setInsert]
    split
    · rename_i e; subst e; simp
    · split
      · simp
      · simp only [List.mem_cons, mem_setInsert (l := l)]
        constructor
        · rintro (h | h | h) <;> simp [h]
        · rintro (h | h | h) <;> simp [h]

theorem setInsert_ordered {tie : MFn → MFn → Bool} {x : Indexed} :
    ∀ {l : List Indexed}, Ordered l → (∀ y ∈ l, y.1 = x.1 → y = x) → Ordered (setInsert tie x l)
  | [], _, _ => by simp [setInsert]
  | y :: l, h, hf => by
    have p := List.pairwise_cons.1 h
    simp only [setInsert]
    split
    · exact h
    · rename_i hne
      split
      · rename_i hlt
        have hlt : x.1 < y.1 := by
          rcases hlt with hl | ⟨he, _⟩
          · exact hl
          · exact absurd (hf y (by simp) he.symm).symm hne
        refine List.pairwise_cons.2 ⟨?_, h⟩
        intro z hz
        rcases List.mem_cons.1 hz with e | hz
        · rw [e]; exact hlt
        · have := p.1 z hz
          rw [UInt32.lt_iff_toNat_lt] at *
          omega
      · rename_i hnl
        refine List.pairwise_cons.2 ⟨?_, setInsert_ordered p.2 fun z hz => hf z (by simp [hz])⟩
        intro z hz
        rcases mem_setInsert.1 hz with e | hz
        · rw [e]
          have h1 : ¬ x.1 < y.1 := fun h => hnl (.inl h)
          have h2 : y.1 ≠ x.1 := fun h => hne (hf y (by simp) h).symm
          have h3 : y.1.toNat ≠ x.1.toNat := fun h => h2 (UInt32.toNat.inj h)
          rw [UInt32.lt_iff_toNat_lt] at *
          omega
        · exact p.1 z hz

theorem setOrder_aux {tie : MFn → MFn → Bool} : ∀ (l s : List Indexed), Ordered s →
    (∀ x ∈ s ++ l, ∀ y ∈ s ++ l, x.1 = y.1 → x = y) →
    Ordered (l.foldl (fun s x => setInsert tie x s) s) ∧
      ∀ x, x ∈ l.foldl (fun s x => setInsert tie x s) s ↔ x ∈ s ∨ x ∈ l
  | [], s, h, _ => by simpa using h
  | a :: l, s, h, hf => by
    simp only [List.foldl_cons]
    have h1 : Ordered (setInsert tie a s) :=
      setInsert_ordered h fun y hy => hf y (by simp [hy]) a (by simp)
    have h2 := setOrder_aux (tie := tie) l (setInsert tie a s) h1 (by
      intro x hx y hy
      apply hf
      · simp only [List.mem_append, mem_setInsert] at hx
        rcases hx with (h | h) | h <;> simp [h]
      · simp only [List.mem_append, mem_setInsert] at hy
        rcases hy with (h | h) | h <;> simp [h])
    refine ⟨h2.1, fun x => ?_⟩
    rw [h2.2 x, mem_setInsert, List.mem_cons]
    constructor
    · rintro ((h | h) | h) <;> simp [h]
    · rintro (h | h | h) <;> simp [h]

theorem setOrder_eq {tie : MFn → MFn → Bool} {l : List Indexed} {fs : List MFn}
    (hn : fs.length ≤ 2 ^ 32) (h : ∀ i f, (i, f) ∈ l ↔ fs[i.toNat]? = some f) :
    setOrder tie l = indexed fs := by
  have hm : ∀ x, x ∈ l ↔ x ∈ indexed fs := fun ⟨i, f⟩ => by rw [h, mem_indexed hn]
  have a := setOrder_aux (tie := tie) l [] List.Pairwise.nil (by
    rintro ⟨i, f⟩ hx ⟨j, g⟩ hy e
    simp only [List.nil_append] at hx hy e
    subst e
    rw [h] at hx hy
    rw [hx] at hy
    simp at hy
    simp [hy])
  refine ordered_unique _ _ a.1 (indexed_ordered hn) fun x => ?_
  rw [← hm]
  have := a.2 x
  simpa [setOrder] using this

theorem addTraitMethods_indexed (callback : Bool) : ∀ (fs acc : List MFn),
    acc.length + fs.length ≤ 2 ^ 32 →
    addTraitMethods callback acc (fs.mapIdx fun i f => (UInt32.ofNat (acc.length + i), f)) =
      some (acc ++ fs)
  | [], acc, _ => by simp [addTraitMethods]
  | f :: fs, acc, h => by
    simp only [List.length_cons] at h
    have ih := addTraitMethods_indexed callback fs (acc ++ [f]) (by simp; omega)
    simp only [List.mapIdx_cons, Nat.add_zero, addTraitMethods]
    rw [if_neg (by rw [toNat_ofNat (by omega)]; simp)]
    simp only [List.length_append, List.length_cons, List.length_nil, List.append_assoc,
      List.singleton_append] at ih
    have e : (fun (i : Nat) (f : MFn) => (UInt32.ofNat (acc.length + (i + 1)), f)) =
        fun i f => (UInt32.ofNat (acc.length + (0 + 1) + i), f) := by
      funext i f; congr 2; omega
    rw [e]; exact ih

theorem legacy_eq {tie : MFn → MFn → Bool} {callback : Bool} {tr : String} {items : List Metadata}
    {fs : List MFn} (hn : fs.length ≤ 2 ^ 32)
    (h : ∀ i f, (i, f) ∈ traitMethodsOf tr items ↔ fs[i.toNat]? = some f) :
    legacyMethods tie callback tr items = some fs := by
  unfold legacyMethods
  rw [setOrder_eq hn h]
  have := addTraitMethods_indexed callback fs [] (by simpa using hn)
  simpa [indexed] using this

/-! ### The map of the pipeline -/

/-- Keys are the names of the values, and different. -/
def Keyed (m : List (String × Indexed)) : Prop :=
  (∀ e ∈ m, e.1 = e.2.2.name) ∧ (m.map (·.1)).Nodup

theorem keyed_value {m : List (String × Indexed)} (hk : Keyed m) {x y : Indexed}
    (hx : x ∈ m.map (·.2)) (hy : y ∈ m.map (·.2)) (h : x.2.name = y.2.name) : x = y := by
  obtain ⟨e, he, rfl⟩ := List.mem_map.1 hx
  obtain ⟨e', he', rfl⟩ := List.mem_map.1 hy
  have h1 := hk.1 e he
  have h2 := hk.1 e' he'
  have hn : e.1 = e'.1 := by rw [h1, h2, h]
  have : ∀ (m : List (String × Indexed)), (m.map (·.1)).Nodup → e ∈ m → e' ∈ m → e = e' := by
    intro m
    induction m with
    | nil => intro _ h; simp at h
    | cons a m ih =>
      intro hd ha hb
      simp only [List.map_cons, List.nodup_cons, List.mem_map, not_exists, not_and] at hd
      rcases List.mem_cons.1 ha with e1 | ha
      · rcases List.mem_cons.1 hb with e2 | hb
        · rw [e1, e2]
        · exact absurd (by rw [← hn, e1]) (hd.1 e' hb)
      · rcases List.mem_cons.1 hb with e2 | hb
        · exact absurd (by rw [hn, e2]) (hd.1 e ha)
        · exact ih hd.2 ha hb
  rw [this m hk.2 he he']

theorem insertUnique_some {m m' : List (String × Indexed)} {x : Indexed} (hk : Keyed m)
    (h : insertUnique m x = some m') :
    Keyed m' ∧ ∀ y, y ∈ m'.map (·.2) ↔ y ∈ m.map (·.2) ∨ y = x := by
  unfold insertUnique at h
  split at h
  · rename_i hf
    simp only [Option.some.injEq] at h
    subst h
    refine ⟨⟨?_, ?_⟩, ?_⟩
    · intro e he
      rcases List.mem_append.1 he with he | he
      · exact hk.1 e he
      · simp at he; subst he; rfl
    · rw [List.map_append, List.nodup_append]
      refine ⟨hk.2, by simp, ?_⟩
      intro a ha b hb
      simp at hb
      obtain ⟨e, he, rfl⟩ := List.mem_map.1 ha
      have := List.find?_eq_none.1 hf e he
      subst hb
      simpa using this
    · intro y; simp
  · rename_i e hf
    split at h
    · rename_i he
      simp only [Option.some.injEq] at h
      subst h
      refine ⟨hk, fun y => ⟨.inl, ?_⟩⟩
      rintro (h | h)
      · exact h
      · rw [h, ← he]; exact List.mem_map_of_mem (List.mem_of_find?_eq_some hf)
    · simp at h

theorem insertUnique_defined {m : List (String × Indexed)} {x : Indexed} (hk : Keyed m)
    (h : ∀ y ∈ m.map (·.2), y.2.name = x.2.name → y = x) : ∃ m', insertUnique m x = some m' := by
  unfold insertUnique
  split
  · exact ⟨_, rfl⟩
  · rename_i e hf
    have he := List.mem_of_find?_eq_some hf
    have hn := List.find?_some hf
    simp only [decide_eq_true_eq] at hn
    rw [if_pos]
    · exact ⟨_, rfl⟩
    · exact h e.2 (List.mem_map_of_mem he) (by rw [← hk.1 e he, hn])

theorem insertAll_some : ∀ (l : List Indexed) (m m' : List (String × Indexed)), Keyed m →
    insertAll m l = some m' → Keyed m' ∧ ∀ y, y ∈ m'.map (·.2) ↔ y ∈ m.map (·.2) ∨ y ∈ l
  | [], m, m', hk, h => by
    simp only [insertAll, Option.some.injEq] at h
    subst h; exact ⟨hk, by simp⟩
  | x :: l, m, m', hk, h => by
    simp only [insertAll, Option.bind_eq_some_iff] at h
    obtain ⟨m1, h1, h2⟩ := h
    have a := insertUnique_some hk h1
    have b := insertAll_some l m1 m' a.1 h2
    refine ⟨b.1, fun y => ?_⟩
    rw [b.2, a.2, List.mem_cons]
    constructor
    · rintro ((h | h) | h) <;> simp only [h, true_or, or_true]
    · rintro (h | h | h) <;> simp only [h, true_or, or_true]

theorem insertAll_defined : ∀ (l : List Indexed) (m : List (String × Indexed)), Keyed m →
    (∀ x, (x ∈ m.map (·.2) ∨ x ∈ l) → ∀ y, (y ∈ m.map (·.2) ∨ y ∈ l) →
      x.2.name = y.2.name → x = y) → ∃ m', insertAll m l = some m'
  | [], m, _, _ => ⟨m, rfl⟩
  | x :: l, m, hk, h => by
    obtain ⟨m1, h1⟩ := insertUnique_defined hk fun y hy e =>
      h y (.inl hy) x (.inr (by simp)) e
    have a := insertUnique_some hk h1
    obtain ⟨m2, h2⟩ := insertAll_defined l m1 a.1 (by
      intro x' hx y hy
      apply h
      · rw [a.2] at hx
        rcases hx with (h | h) | h <;> simp only [h, true_or, or_true, List.mem_cons]
      · rw [a.2] at hy
        rcases hy with (h | h) | h <;> simp only [h, true_or, or_true, List.mem_cons])
    exact ⟨m2, by simp [insertAll, h1, h2]⟩

theorem mem_insertByIndex {x y : Indexed} :
    ∀ {l : List Indexed}, y ∈ insertByIndex x l ↔ y = x ∨ y ∈ l
  | [] => by simp [insertByIndex]
  | z :: l => by
    simp only [insertByIndex]
    split
    · simp
    · simp only [List.mem_cons, mem_insertByIndex (l := l)]
      constructor
      · rintro (h | h | h) <;> simp [h]
      · rintro (h | h | h) <;> simp [h]

theorem insertByIndex_ordered {x : Indexed} : ∀ {l : List Indexed}, Ordered l →
    (∀ y ∈ l, y.1 ≠ x.1) → Ordered (insertByIndex x l)
  | [], _, _ => by simp [insertByIndex]
  | y :: l, h, hf => by
    have p := List.pairwise_cons.1 h
    have hne : y.1.toNat ≠ x.1.toNat := fun e => hf y (by simp) (UInt32.toNat.inj e)
    simp only [insertByIndex]
    split
    · rename_i hle
      refine List.pairwise_cons.2 ⟨?_, h⟩
      intro z hz
      rcases List.mem_cons.1 hz with e | hz
      · rw [e]
        rw [UInt32.le_iff_toNat_le] at hle
        rw [UInt32.lt_iff_toNat_lt]; omega
      · have := p.1 z hz
        rw [UInt32.le_iff_toNat_le] at hle
        rw [UInt32.lt_iff_toNat_lt] at *
        omega
    · rename_i hle
      refine List.pairwise_cons.2 ⟨?_, insertByIndex_ordered p.2 fun z hz => hf z (by simp [hz])⟩
      intro z hz
      rcases mem_insertByIndex.1 hz with e | hz
      · rw [e]
        rw [UInt32.le_iff_toNat_le] at hle
        rw [UInt32.lt_iff_toNat_lt]; omega
      · exact p.1 z hz

theorem mem_sortByIndex {y : Indexed} : ∀ {l : List Indexed}, y ∈ sortByIndex l ↔ y ∈ l
  | [] => by simp [sortByIndex]
  | x :: l => by simp [sortByIndex, mem_insertByIndex, mem_sortByIndex (l := l)]

theorem sortByIndex_ordered : ∀ {l : List Indexed}, l.Nodup →
    (∀ x ∈ l, ∀ y ∈ l, x.1 = y.1 → x = y) → Ordered (sortByIndex l)
  | [], _, _ => by simp [sortByIndex]
  | x :: l, hd, hf => by
    have hd := List.nodup_cons.1 hd
    refine insertByIndex_ordered
      (sortByIndex_ordered hd.2 fun a ha b hb => hf a (by simp [ha]) b (by simp [hb])) ?_
    intro y hy e
    rw [mem_sortByIndex] at hy
    have := hf y (by simp [hy]) x (by simp) e
    rw [this] at hy
    exact hd.1 hy

theorem keyed_nodup {m : List (String × Indexed)} (hk : Keyed m) : (m.map (·.2)).Nodup := by
  have h : (m.map (·.2)).map (fun x => x.2.name) = m.map (·.1) := by
    rw [List.map_map]
    exact List.map_congr_left fun e he => (hk.1 e he).symm
  have := hk.2
  rw [← h] at this
  rw [List.nodup_iff_pairwise_ne, List.pairwise_map] at this
  exact this.imp fun h e => h (by rw [e])

theorem name_index {fs : List MFn} (hd : (fs.map (·.name)).Nodup) {i j : Nat} {f g : MFn}
    (hi : fs[i]? = some f) (hj : fs[j]? = some g) (h : f.name = g.name) : i = j := by
  obtain ⟨hi', ei⟩ := List.getElem?_eq_some_iff.1 hi
  obtain ⟨hj', ej⟩ := List.getElem?_eq_some_iff.1 hj
  rw [List.nodup_iff_pairwise_ne, List.pairwise_iff_getElem] at hd
  rcases Nat.lt_trichotomy i j with hl | he | hl
  · exact (hd i j (by simpa using hi') (by simpa using hj') hl (by simp [ei, ej, h])).elim
  · exact he
  · exact (hd j i (by simpa using hj') (by simpa using hi') hl (by simp [ei, ej, h])).elim

theorem pipeline_eq {crate tr : String} {items : List Metadata} {fs : List MFn}
    (hn : fs.length ≤ 2 ^ 32)
    (h : ∀ i f, (i, f) ∈ crateTraitMethods crate tr items ↔ fs[i.toNat]? = some f) :
    pipelineMethods crate tr items = if (fs.map (·.name)).Nodup then some fs else none := by
  unfold pipelineMethods
  have hk0 : Keyed ([] : List (String × Indexed)) := ⟨by simp, by simp⟩
  split
  · rename_i hd
    obtain ⟨m, hm⟩ := insertAll_defined (crateTraitMethods crate tr items) [] hk0 (by
      rintro ⟨i, f⟩ hx ⟨j, g⟩ hy e
      simp only [List.map_nil, List.not_mem_nil, false_or] at hx hy e
      rw [h] at hx hy
      have hij := name_index hd hx hy e
      have hij' := UInt32.toNat.inj hij
      subst hij'
      rw [hx] at hy
      simp at hy
      simp [hy])
    have a := insertAll_some _ _ _ hk0 hm
    have hmem : ∀ x, x ∈ m.map (·.2) ↔ x ∈ indexed fs := by
      rintro ⟨i, f⟩
      rw [a.2, mem_indexed hn, ← h]
      simp
    have hs : sortByIndex (m.map (·.2)) = indexed fs := by
      refine ordered_unique _ _ (sortByIndex_ordered (keyed_nodup a.1) ?_) (indexed_ordered hn) ?_
      · rintro ⟨i, f⟩ hx ⟨j, g⟩ hy e
        simp only at e
        subst e
        rw [hmem, mem_indexed hn] at hx hy
        rw [hx] at hy
        simp at hy
        simp [hy]
      · intro x; rw [mem_sortByIndex, hmem]
    rw [hm, Option.map_some, hs]
    congr 1
    simp [indexed]
    exact List.ext_getElem (by simp) (by simp)
  · rename_i hd
    cases hm : insertAll [] (crateTraitMethods crate tr items) with
    | none => rfl
    | some m =>
      exfalso
      apply hd
      have a := insertAll_some _ _ _ hk0 hm
      have hmem : ∀ x, x ∈ m.map (·.2) ↔ x ∈ indexed fs := by
        rintro ⟨i, f⟩
        rw [a.2, mem_indexed hn, ← h]
        simp
      rw [List.nodup_iff_pairwise_ne, List.pairwise_iff_getElem]
      intro i j hi hj hij e
      simp only [List.length_map] at hi hj
      simp only [List.getElem_map] at e
      have m1 : (UInt32.ofNat i, fs[i]) ∈ m.map (·.2) := by
        rw [hmem, mem_indexed hn, toNat_ofNat (by omega)]; simp
      have m2 : (UInt32.ofNat j, fs[j]) ∈ m.map (·.2) := by
        rw [hmem, mem_indexed hn, toNat_ofNat (by omega)]; simp
      have := keyed_value a.1 m1 m2 e
      simp only [Prod.mk.injEq] at this
      have := congrArg UInt32.toNat this.1
      rw [toNat_ofNat (by omega), toNat_ofNat (by omega)] at this
      omega

end Verif.Abi
