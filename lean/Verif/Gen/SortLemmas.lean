import Verif.Gen.Sort
import Verif.Gen.SortSpec
namespace Verif.Gen

variable {α : Type} {name : α → String} {deps : α → List String}

theorem Needs.trans {items : List α} {x y z : α} (h : Needs name deps items x y)
    (h' : Needs name deps items y z) : Needs name deps items x z := by
  induction h with
  | direct hy hd => exact .through hy hd h'
  | through hy hd _ ih => exact .through hy hd (ih h')

/-! Collecting -/

theorem indexInsert_names (x : α) (xs : List α) :
    (indexInsert name x xs).map name =
      if name x ∈ xs.map name then xs.map name else xs.map name ++ [name x] := by
  induction xs with
  | nil => simp [indexInsert]
  | cons y ys ih =>
    unfold indexInsert
    by_cases h : name y = name x
    · simp [h]
    · rw [if_neg h]
      simp only [List.map_cons, ih, List.mem_cons]
      have h' : name x ≠ name y := fun e => h e.symm
      by_cases hm : name x ∈ ys.map name
      · simp only [if_pos hm, if_pos (Or.inr hm)]
      · rw [if_neg hm, if_neg (by rintro (e | e); exact h' e; exact hm e)]; rfl

theorem indexInsert_mem (x : α) (xs : List α) (hnd : (xs.map name).Nodup) (y : α) :
    y ∈ indexInsert name x xs ↔ y = x ∨ (y ∈ xs ∧ name y ≠ name x) := by
  induction xs with
  | nil => simp [indexInsert]
  | cons z zs ih =>
    simp only [List.map_cons, List.nodup_cons] at hnd
    unfold indexInsert
    by_cases h : name z = name x
    · rw [if_pos h]
      simp only [List.mem_cons]
      constructor
      · rintro (e | hy)
        · exact .inl e
        · exact .inr ⟨.inr hy, fun e => hnd.1 (List.mem_map.2 ⟨y, hy, by rw [e, h]⟩)⟩
      · rintro (e | ⟨rfl | hy, hn⟩)
        · exact .inl e
        · exact absurd h hn
        · exact .inr hy
    · rw [if_neg h, List.mem_cons, ih hnd.2, List.mem_cons]
      constructor
      · rintro (rfl | rfl | ⟨a, b⟩)
        · exact .inr ⟨.inl rfl, h⟩
        · exact .inl rfl
        · exact .inr ⟨.inr a, b⟩
      · rintro (rfl | ⟨rfl | a, b⟩)
        · exact .inr (.inl rfl)
        · exact .inl rfl
        · exact .inr (.inr ⟨a, b⟩)

theorem collect_spec (items : List α) : ∀ (m : List α), (m.map name).Nodup →
    ((items.foldl (fun m x => indexInsert name x m) m).map name).Nodup ∧
    (∀ n, n ∈ (items.foldl (fun m x => indexInsert name x m) m).map name ↔
      n ∈ m.map name ∨ n ∈ items.map name) ∧
    ∀ x, x ∈ items.foldl (fun m x => indexInsert name x m) m ↔
      (∃ pre post, items = pre ++ x :: post ∧ ∀ y ∈ post, name y ≠ name x) ∨
      (x ∈ m ∧ ∀ y ∈ items, name y ≠ name x) := by
  induction items with
  | nil => intro m h; simp [h]
  | cons i items ih =>
    intro m hm
    have hnd : ((indexInsert name i m).map name).Nodup := by
      rw [indexInsert_names]
      split
      · exact hm
      · rename_i hni
        rw [List.nodup_append]
        refine ⟨hm, by simp, ?_⟩
        intro a ha b hb e
        rw [List.mem_singleton.1 hb] at e
        exact hni (e ▸ ha)
    obtain ⟨h1, h2, h3⟩ := ih _ hnd
    refine ⟨h1, ?_, ?_⟩
    · intro n
      simp only [List.foldl_cons, List.map_cons, List.mem_cons]
      rw [h2, indexInsert_names]
      split
      · rename_i hi
        constructor
        · rintro (a | a)
          · exact .inl a
          · exact .inr (.inr a)
        · rintro (a | rfl | a)
          · exact .inl a
          · exact .inl hi
          · exact .inr a
      · simp only [List.mem_append, List.mem_singleton]
        grind
    · intro x
      simp only [List.foldl_cons]
      rw [h3, indexInsert_mem i m hm]
      constructor
      · rintro (⟨pre, post, e, hp⟩ | ⟨rfl | ⟨hx, hn⟩, hall⟩)
        · exact .inl ⟨i :: pre, post, by rw [e]; rfl, hp⟩
        · exact .inl ⟨[], items, rfl, hall⟩
        · refine .inr ⟨hx, ?_⟩
          intro y hy
          rcases List.mem_cons.1 hy with rfl | hy
          · exact fun e => hn e.symm
          · exact hall y hy
      · rintro (⟨pre, post, e, hp⟩ | ⟨hx, hall⟩)
        · cases pre with
          | nil =>
            simp only [List.nil_append, List.cons.injEq] at e
            obtain ⟨rfl, rfl⟩ := e
            exact .inr ⟨.inl rfl, hp⟩
          | cons p pre =>
            simp only [List.cons_append, List.cons.injEq] at e
            exact .inl ⟨pre, post, e.2, hp⟩
        · exact .inr ⟨.inr ⟨hx, fun e => hall i (by simp) e.symm⟩, fun y hy => hall y (by simp [hy])⟩

/-! Sorting -/

theorem shiftRemove_some {n : String} {xs rest : List α} {x : α}
    (h : shiftRemove name n xs = some (x, rest)) :
    name x = n ∧ List.Perm xs (x :: rest) := by
  induction xs generalizing rest with
  | nil => simp [shiftRemove] at h
  | cons y ys ih =>
    unfold shiftRemove at h
    split at h
    · rename_i hy; simp only [Option.some.injEq, Prod.mk.injEq] at h
      obtain ⟨rfl, rfl⟩ := h
      exact ⟨hy, List.Perm.refl _⟩
    · simp only [Option.map_eq_some_iff] at h
      obtain ⟨⟨a, b⟩, hab, e⟩ := h
      simp only [Prod.mk.injEq] at e
      obtain ⟨rfl, rfl⟩ := e
      obtain ⟨h1, h2⟩ := ih hab
      exact ⟨h1, (h2.cons y).trans (List.Perm.swap ..)⟩

theorem shiftRemove_none {n : String} {xs : List α} (h : shiftRemove name n xs = none) :
    ∀ x ∈ xs, name x ≠ n := by
  induction xs with
  | nil => simp
  | cons y ys ih =>
    unfold shiftRemove at h
    split at h
    · simp at h
    · rename_i hy
      simp only [Option.map_eq_none_iff] at h
      intro x hx
      rcases List.mem_cons.1 hx with rfl | hx
      · exact hy
      · exact ih h x hx

theorem shiftRemove_length {n : String} {xs rest : List α} {x : α}
    (h : shiftRemove name n xs = some (x, rest)) : xs.length = rest.length + 1 := by
  have := (shiftRemove_some h).2.length_eq
  simpa using this

/-- What holds between calls: `stack` are the items whose dependencies are being added. -/
structure SortInv (name : α → String) (deps : α → List String) (items stack : List α)
    (st : SortSt α) : Prop where
  perm : List.Perm items (st.sorted ++ stack ++ st.unsorted)
  order : ∀ pre x post, st.sorted = pre ++ x :: post → ∀ y ∈ items, name y ∈ deps x →
    y ∈ pre ∨ Needs name deps items y x

/-- The effect of a call of `recurse` for `n`. -/
structure SortPost (name : α → String) (deps : α → List String) (items stack : List α) (n : String)
    (st st' : SortSt α) : Prop where
  inv : SortInv name deps items stack st'
  mono : ∃ ext, st'.sorted = st.sorted ++ ext
  len : st'.unsorted.length ≤ st.unsorted.length
  found : ∀ x ∈ items, name x = n → x ∈ st'.sorted ∨ x ∈ stack

theorem sortRecurse_spec (items : List α) (hnd : ∀ x ∈ items, ∀ y ∈ items, name x = name y → x = y) :
    ∀ (fuel : Nat) (n : String) (st : SortSt α) (stack : List α),
      SortInv name deps items stack st → st.unsorted.length < fuel →
      (∀ s ∈ stack, ∀ x ∈ items, name x = n → Needs name deps items s x) →
      ∃ st', sortRecurse name deps fuel n st = some st' ∧
        SortPost name deps items stack n st st' := by
  intro fuel
  induction fuel with
  | zero => intro n st stack _ h; omega
  | succ fuel ih =>
    intro n st stack hinv hlen hst
    unfold sortRecurse
    cases hr : shiftRemove name n st.unsorted with
    | none =>
      refine ⟨st, rfl, hinv, ⟨[], by simp⟩, Nat.le_refl _, ?_⟩
      intro x hx hn
      have := hinv.perm.subset hx
      simp only [List.mem_append] at this
      rcases this with (h | h) | h
      · exact .inl h
      · exact .inr h
      · exact absurd hn (shiftRemove_none hr x h)
    | some p =>
      obtain ⟨x, rest⟩ := p
      obtain ⟨hxn, hperm⟩ := shiftRemove_some hr
      have hl := shiftRemove_length hr
      dsimp only
      have hx : x ∈ items := by
        apply hinv.perm.symm.subset
        simp [hperm.symm.subset (List.mem_cons_self ..)]
      -- the items below `x`
      have hinv1 : SortInv name deps items (x :: stack) { st with unsorted := rest } := by
        refine ⟨hinv.perm.trans ?_, hinv.order⟩
        dsimp only
        simp only [List.append_assoc, List.cons_append]
        refine List.Perm.append_left _ ?_
        refine (hperm.append_left stack).trans ?_
        exact List.perm_middle
      have hst1 : ∀ d ∈ deps x, ∀ s ∈ x :: stack, ∀ y ∈ items, name y = d →
          Needs name deps items s y := by
        intro d hd s hs y hy hyd
        have hdir : Needs name deps items x y := .direct hy (hyd ▸ hd)
        rcases List.mem_cons.1 hs with rfl | hs
        · exact hdir
        · exact (hst s hs x hx hxn).trans hdir
      have loop : ∀ (ds : List String) (st0 : SortSt α), (∀ d ∈ ds, d ∈ deps x) →
          SortInv name deps items (x :: stack) st0 → st0.unsorted.length < fuel →
          ∃ st1, ds.foldlM (fun st d => sortRecurse name deps fuel d st) st0 = some st1 ∧
            SortInv name deps items (x :: stack) st1 ∧ (∃ ext, st1.sorted = st0.sorted ++ ext) ∧
            st1.unsorted.length ≤ st0.unsorted.length ∧
            ∀ d ∈ ds, ∀ y ∈ items, name y = d → y ∈ st1.sorted ∨ y ∈ x :: stack := by
        intro ds
        induction ds with
        | nil => intro st0 _ h _; exact ⟨st0, rfl, h, ⟨[], by simp⟩, Nat.le_refl _, by simp⟩
        | cons d ds ihd =>
          intro st0 hsub h0 hlt
          obtain ⟨sta, ea, pa⟩ := ih d st0 (x :: stack) h0 hlt (hst1 d (hsub d (by simp)))
          obtain ⟨stb, eb, b1, b2, b3, b4⟩ := ihd sta (fun d hd => hsub d (by simp [hd])) pa.inv
            (by have := pa.len; omega)
          obtain ⟨exta, ha⟩ := pa.mono
          obtain ⟨extb, hb⟩ := b2
          refine ⟨stb, ?_, b1, ⟨exta ++ extb, by rw [hb, ha, List.append_assoc]⟩,
            by have := pa.len; omega, ?_⟩
          · rw [List.foldlM_cons, ea]; exact eb
          · intro d' hd' y hy hyd
            rcases List.mem_cons.1 hd' with rfl | hd'
            · exact (pa.found y hy hyd).imp (fun h => by rw [hb]; simp [h]) id
            · exact b4 d' hd' y hy hyd
      obtain ⟨st1, e1, i1, m1, l1, f1⟩ := loop (deps x) { st with unsorted := rest } (fun d h => h) hinv1
        (by dsimp only; omega)
      dsimp only at l1 m1
      refine ⟨{ st1 with sorted := st1.sorted ++ [x] }, by rw [e1]; rfl, ⟨?_, ?_⟩, ?_, by dsimp only; omega, ?_⟩
      · refine i1.perm.trans ?_
        simp only [List.append_assoc, List.cons_append, List.nil_append]
        exact List.Perm.refl _
      · dsimp only
        intro pre z post he y hy hd
        rcases List.eq_nil_or_concat post with rfl | ⟨post', w, rfl⟩
        · have he' := List.append_inj' he rfl
          obtain ⟨rfl, hz⟩ := he'
          simp only [List.cons.injEq, and_true] at hz
          subst hz
          rcases f1 (name y) hd y hy rfl with h | h
          · exact .inl h
          · rcases List.mem_cons.1 h with rfl | h
            · exact .inr (.direct hy hd)
            · exact .inr (hst y h x hx hxn)
        · refine i1.order pre z post' ?_ y hy hd
          rw [List.concat_eq_append, ← List.cons_append, ← List.append_assoc] at he
          exact (List.append_inj' he rfl).1
      · obtain ⟨ext, he⟩ := m1
        exact ⟨ext ++ [x], by simp [he]⟩
      · intro y hy hyn
        left
        have : y = x := hnd y hy x hx (by rw [hyn, hxn])
        simp [this]

theorem sortLoop_spec (items : List α) (hnd : (items.map name).Nodup) (depth : Nat) :
    ∀ (fuel : Nat) (st : SortSt α), SortInv name deps items [] st → st.unsorted.length < fuel →
      items.length < depth →
      ∃ res, sortLoop name deps depth fuel st = some res ∧ List.Perm items res ∧
        ∀ pre x post, res = pre ++ x :: post → ∀ y ∈ items, name y ∈ deps x →
          y ∈ pre ∨ Needs name deps items y x := by
  have huniq : ∀ x ∈ items, ∀ y ∈ items, name x = name y → x = y := by
    intro x hx y hy e
    induction items with
    | nil => simp at hx
    | cons i items ih =>
      simp only [List.map_cons, List.nodup_cons] at hnd
      rcases List.mem_cons.1 hx with rfl | hx1 <;> rcases List.mem_cons.1 hy with rfl | hy1
      · rfl
      · exact absurd (List.mem_map.2 ⟨y, hy1, e.symm⟩) hnd.1
      · exact absurd (List.mem_map.2 ⟨x, hx1, e⟩) hnd.1
      · exact ih hnd.2 hx1 hy1
  have hnodup : items.Nodup := List.Pairwise.imp (fun h e => h (by rw [e])) (List.pairwise_map.1 hnd)
  intro fuel
  induction fuel with
  | zero => intro st _ h; omega
  | succ fuel ih =>
    intro st hinv hlen hdep
    unfold sortLoop
    cases hu : st.unsorted with
    | nil =>
      refine ⟨st.sorted, rfl, ?_, hinv.order⟩
      have := hinv.perm
      rw [hu] at this
      simpa using this
    | cons x xs =>
      have hx : x ∈ items := hinv.perm.symm.subset (by simp [hu])
      have hl := hinv.perm.length_eq
      simp only [List.length_append, List.append_nil] at hl
      obtain ⟨st', e, p⟩ := sortRecurse_spec (deps := deps) items huniq depth (name x) st [] hinv (by omega) (by simp)
      obtain ⟨ext, he⟩ := p.mono
      have hl' := p.inv.perm.length_eq
      simp only [List.length_append, List.append_nil] at hl'
      have hmem : x ∈ st'.sorted := (p.found x hx rfl).resolve_right (by simp)
      have hni : x ∉ st.sorted := by
        have hn := hinv.perm.nodup hnodup
        rw [hu] at hn
        simp only [List.append_nil] at hn
        intro h
        exact (List.nodup_append.1 hn).2.2 x h x (by simp) rfl
      have hext : ext ≠ [] := by
        rintro rfl
        rw [he, List.append_nil] at hmem
        exact hni hmem
      have hpos : 0 < ext.length := List.length_pos_iff.2 hext
      rw [he, List.length_append] at hl'
      dsimp only
      rw [e, Option.bind_some]
      exact ih st' p.inv (by omega) hdep

end Verif.Gen
