import Verif.Gen.AssembleMaps
import Verif.Gen.AssembleSpec
/-
What the converter holds after the items were added.
-/
namespace Verif.Gen.Assemble
open Verif.Meta

/-- The key of a role. -/
def roleKey : Role → Key
  | .function c n => ⟨.func, c, "", [n]⟩
  | .record c n => ⟨.record, c, "", [n]⟩
  | .enum c n => ⟨.enum, c, "", [n]⟩
  | .custom c n => ⟨.custom, c, "", [n]⟩
  | .object c n => ⟨.object, c, "", [n]⟩
  | .callback c n => ⟨.callback, c, "", [n]⟩
  | .ctor c o n => ⟨.ctor, c, o, [n]⟩
  | .method c o n => ⟨.method, c, o, [n]⟩
  | .traitMethod c o n => ⟨.traitMethod, c, o, [n]⟩
  | .builtin c o n => ⟨.builtin, c, o, [n]⟩
  | .impl c o t => ⟨.impl, c, o, tyKey t⟩

theorem roleKey_inj {a b : Role} (h : roleKey a = roleKey b) : a = b := by
  cases a <;> cases b <;> simp [roleKey] at h
  case impl.impl => obtain ⟨h1, h2, h3⟩ := h; rw [h1, h2, tyKey_inj h3]
  all_goals simp_all

theorem keyOf_role (i : Metadata) : keyOf i = (role i).map roleKey := by
  cases i <;> try rfl
  case uniffiTrait t => cases t <;> rfl
  case objectTraitImpl t tr => cases t <;> rfl

theorem keyOf_some {i : Metadata} {k : Key} : keyOf i = some k ↔ ∃ r, role i = some r ∧ roleKey r = k := by
  rw [keyOf_role]
  simp

theorem keyOf_eq_iff {i j : Metadata} : keyOf i = keyOf j ↔ role i = role j := by
  rw [keyOf_role, keyOf_role]
  constructor
  · intro h
    cases hi : role i <;> cases hj : role j <;> rw [hi, hj] at h <;> simp at h
    · exact congrArg _ (roleKey_inj h)
  · intro h
    rw [h]

/-- An entry that stands for an item: the item, or the same custom type with at least as much
documentation. -/
def Covers (v' v : Metadata) : Prop :=
  v' = v ∨ (SameCustom v' v ∧ ((customDoc v).isSome → (customDoc v').isSome))

theorem SameCustom.trans {a b c : Metadata} (h1 : SameCustom a b) (h2 : SameCustom b c) :
    SameCustom a c := by
  cases a <;> cases b <;> simp [SameCustom] at h1
  cases c <;> simp [SameCustom] at h2
  obtain ⟨rfl, rfl, rfl⟩ := h1
  exact h2

theorem SameCustom.symm {a b : Metadata} (h1 : SameCustom a b) : SameCustom b a := by
  cases a <;> cases b <;> simp [SameCustom] at h1
  obtain ⟨rfl, rfl, rfl⟩ := h1
  simp [SameCustom]

theorem Covers.refl (v : Metadata) : Covers v v := .inl rfl

theorem Covers.trans {a b c : Metadata} (h1 : Covers a b) (h2 : Covers b c) : Covers a c := by
  rcases h1 with rfl | ⟨s1, d1⟩
  · exact h2
  · rcases h2 with rfl | ⟨s2, d2⟩
    · exact .inr ⟨s1, d1⟩
    · exact .inr ⟨s1.trans s2, fun h => d1 (d2 h)⟩

/-- What the converter knows. -/
structure Inv (items : List Metadata) (c : Conv) : Prop where
  nodup : (c.items.map (·.1)).Nodup
  sound : ∀ k v, (k, v) ∈ c.items → v ∈ items ∧ keyOf v = some k
  complete : ∀ v ∈ items, ∀ k, keyOf v = some k → ∃ v', (k, v') ∈ c.items ∧ Covers v' v
  nsNodup : (c.namespaces.map (·.1)).Nodup
  nsMem : ∀ n cr, (n, cr) ∈ c.namespaces ↔ Metadata.namespace_ cr n ∈ items
  crateSound : ∀ cr n, get c.crates cr = some n → Metadata.namespace_ cr n ∈ items
  crateComplete : ∀ cr n, Metadata.namespace_ cr n ∈ items → (get c.crates cr).isSome
  named : ∀ t tr, Metadata.objectTraitImpl t tr ∈ items → keyOf (.objectTraitImpl t tr) ≠ none

theorem inv_nil : Inv [] {} := by
  constructor <;> simp [get_nil]

/-- An item with a key that is not a custom type. -/
theorem addItem_plain {c c' : Conv} {i : Metadata} {k : Key} (hk : keyOf i = some k)
    (hc : isCustom i = false) (h : addItem c i = some c') :
    ∃ its, insertUnique c.items k i = some its ∧
      c' = { c with items := its, origNames := noteOrig c.origNames i } := by
  cases i <;> simp only [keyOf, reduceCtorEq] at hk <;> simp only [isCustom, Bool.true_eq_false] at hc
  case uniffiTrait t =>
    simp only [addItem, keyOf, Option.map_eq_some_iff] at h
    cases hk
    obtain ⟨its, h1, rfl⟩ := h
    exact ⟨its, h1, rfl⟩
  case objectTraitImpl t tr =>
    simp only [addItem, keyOf] at h
    rw [hk] at h
    simp only [Option.map_eq_some_iff] at h
    obtain ⟨its, h1, rfl⟩ := h
    exact ⟨its, h1, rfl⟩
  all_goals
    simp only [addItem, keyOf, Option.map_eq_some_iff] at h
    cases hk
    obtain ⟨its, h1, rfl⟩ := h
    exact ⟨its, h1, rfl⟩

theorem addItem_isSome_plain {c : Conv} {i : Metadata} {k : Key} (hk : keyOf i = some k)
    (hc : isCustom i = false) : (addItem c i).isSome = (insertUnique c.items k i).isSome := by
  cases i <;> simp only [keyOf, reduceCtorEq] at hk <;> simp only [isCustom, Bool.true_eq_false] at hc
  case objectTraitImpl t tr =>
    simp only [addItem, keyOf]
    rw [hk]
    simp
  all_goals
    cases hk
    simp [addItem, keyOf]

/-- Three kinds of items. -/
theorem item_cases (i : Metadata) : (∃ c n, i = .namespace_ c n) ∨ (∃ m n s, i = .udlFile m n s) ∨
    (∃ t tr, i = .objectTraitImpl t tr ∧ keyOf i = none) ∨ (∃ m n o b d, i = .customType m n o b d) ∨
    (∃ k, keyOf i = some k ∧ isCustom i = false) := by
  cases i
  case objectTraitImpl t tr =>
    cases h : keyOf (.objectTraitImpl t tr) with
    | none => exact .inr (.inr (.inl ⟨t, tr, rfl, rfl⟩))
    | some k => exact .inr (.inr (.inr (.inr ⟨k, rfl, rfl⟩)))
  all_goals simp [keyOf, isCustom]

theorem addCustom_spec {items its : List (Key × Metadata)} {k : Key} {m n : String}
    {o : Option String} {b : MTy} {d : Option String}
    (h : addCustom items k (.customType m n o b d) = some its) (hn : (items.map (·.1)).Nodup)
    (hk : ∀ v, (k, v) ∈ items → ∀ m' n' o' b' d', v = .customType m' n' o' b' d' → n' = n) :
    (its.map (·.1)).Nodup ∧ (∀ e ∈ its, e ∈ items ∨ e = (k, .customType m n o b d)) ∧
      (∀ e ∈ items, e.1 ≠ k → e ∈ its) ∧
      ∃ v', (k, v') ∈ its ∧ Covers v' (.customType m n o b d) ∧ ∀ v, (k, v) ∈ items → Covers v' v := by
  rw [addCustom] at h
  split at h
  · rename_i hg
    cases h
    rw [get_eq_none] at hg
    refine ⟨?_, ?_, ?_, _, List.mem_append_right _ (List.mem_singleton.2 rfl), .refl _, ?_⟩
    · rw [List.map_append, List.nodup_append]
      refine ⟨hn, by simp, ?_⟩
      intro a ha x hx
      simp only [List.mem_map] at ha
      obtain ⟨e, he, rfl⟩ := ha
      simp only [List.map_cons, List.map_nil, List.mem_singleton] at hx
      subst hx
      intro hk
      exact hg e.2 (by rw [← hk]; exact he)
    · simp
    · intro e he _
      simp [he]
    · intro v hv
      exact absurd hv (hg v)
  · rename_i old hg
    have hm := mem_of_get hg
    have huniq : ∀ v, (k, v) ∈ items → v = old := fun v hv =>
      (Option.some.inj ((get_of_mem hn hv).symm.trans hg))
    cases old <;> dsimp only at h <;> try cases h
    rename_i m' n' o' b' d'
    have hnn := hk _ hm _ _ _ _ _ rfl
    subst hnn
    split at h
    · cases h
    · rename_i hbm
      have hbm : b' = b ∧ m' = m := by simpa using hbm
      obtain ⟨rfl, rfl⟩ := hbm
      split at h
      · rename_i hd
        cases h
        refine ⟨put_nodup hn _ _, ?_, ?_, _, mem_put.2 (.inl rfl), .refl _, ?_⟩
        · intro e he
          rcases mem_put.1 he with rfl | ⟨he, _⟩
          · exact .inr rfl
          · exact .inl he
        · intro e he hne
          exact mem_put.2 (.inr ⟨he, hne⟩)
        · intro v hv
          rw [huniq v hv]
          exact .inr ⟨⟨rfl, rfl, rfl⟩, fun _ => hd.1⟩
      · rename_i hd
        cases h
        refine ⟨hn, fun e he => .inl he, fun e he _ => he, _, hm, ?_, ?_⟩
        · refine .inr ⟨⟨rfl, rfl, rfl⟩, ?_⟩
          simp only [customDoc]
          intro hs
          cases d' with
          | none => exact absurd ⟨hs, rfl⟩ hd
          | some x => rfl
        · intro v hv
          rw [huniq v hv]
          exact .refl _

theorem addCustom_isSome {items : List (Key × Metadata)} {k : Key} {m n : String}
    {o : Option String} {b : MTy} {d : Option String} (hn : (items.map (·.1)).Nodup) :
    (addCustom items k (.customType m n o b d)).isSome ↔
      ∀ v, (k, v) ∈ items → ∃ n' o' d', v = .customType m n' o' b d' := by
  rw [addCustom]
  split
  · rename_i hg
    rw [get_eq_none] at hg
    simp only [Option.isSome_some, true_iff]
    exact fun v hv => absurd hv (hg v)
  · rename_i old hg
    have hm := mem_of_get hg
    have huniq : ∀ v, (k, v) ∈ items → v = old := fun v hv =>
      (Option.some.inj ((get_of_mem hn hv).symm.trans hg))
    have hsimp : (∀ v, (k, v) ∈ items → ∃ n' o' d', v = Metadata.customType m n' o' b d') ↔
        ∃ n' o' d', old = Metadata.customType m n' o' b d' :=
      ⟨fun h => h old hm, fun h v hv => huniq v hv ▸ h⟩
    rw [hsimp]
    cases old <;> simp
    rename_i m' n' o' b' d'
    split
    · rename_i hbm
      simp only [Option.isSome_none, Bool.false_eq_true, false_iff]
      rintro ⟨rfl, rfl⟩
      simp at hbm
    · rename_i hbm
      have hbm : b' = b ∧ m' = m := by simpa using hbm
      split <;> simp [hbm]

theorem custom_key_name {v : Metadata} {k : Key} (h : keyOf v = some k) {m' n' : String}
    {o' : Option String} {b' : MTy} {d' : Option String} (hv : v = .customType m' n' o' b' d') :
    k.name = [n'] := by
  subst hv
  cases h
  rfl

theorem kind_custom {v : Metadata} {k : Key} (h : keyOf v = some k) (hk : k.kind = .custom) :
    isCustom v = true := by
  obtain ⟨r, hr, rfl⟩ := keyOf_some.1 h
  cases v <;> simp only [role, reduceCtorEq, Option.some.injEq] at hr <;>
    first | rfl | (subst hr; cases hk) | skip
  case uniffiTrait t => cases t <;> cases hr <;> cases hk
  case objectTraitImpl t tr => cases t <;> cases hr <;> cases hk

theorem Inv.step {items : List Metadata} {c c' : Conv} {i : Metadata} (hi : Inv items c)
    (h : addItem c i = some c') : Inv (items ++ [i]) c' := by
  rcases item_cases i with ⟨cr, n, rfl⟩ | ⟨m, n, s, rfl⟩ | ⟨t, tr, rfl, hk⟩ | ⟨m, n, o, b, d, rfl⟩ |
    ⟨k, hk, hc⟩
  · simp only [addItem, Option.map_eq_some_iff] at h
    obtain ⟨ns, hu, rfl⟩ := h
    refine ⟨hi.nodup, ?_, ?_, insertUnique_nodup hu hi.nsNodup, ?_, ?_, ?_, ?_⟩
    · intro k v hv
      obtain ⟨h1, h2⟩ := hi.sound k v hv
      exact ⟨List.mem_append_left _ h1, h2⟩
    · intro v hv k hk
      simp only [List.mem_append, List.mem_singleton] at hv
      rcases hv with hv | rfl
      · exact hi.complete v hv k hk
      · cases hk
    · intro n' cr'
      rw [insertUnique_mem hu, hi.nsMem]
      simp only [List.mem_append, List.mem_singleton, Metadata.namespace_.injEq, Prod.mk.injEq]
      constructor <;> rintro (h | ⟨rfl, rfl⟩) <;> simp_all
    · intro cr' n' hg
      rw [get_put] at hg
      split at hg
      · rename_i he
        cases hg
        subst he
        simp
      · simp [hi.crateSound cr' n' hg]
    · intro cr' n' hm
      rw [get_put]
      split
      · rfl
      · rename_i hne
        simp only [List.mem_append, List.mem_singleton, Metadata.namespace_.injEq] at hm
        rcases hm with hm | ⟨rfl, rfl⟩
        · exact hi.crateComplete cr' n' hm
        · exact absurd rfl hne
    · intro t tr hm
      simp only [List.mem_append, List.mem_singleton, reduceCtorEq, or_false] at hm
      exact hi.named t tr hm
  · simp only [addItem, Option.some.injEq] at h
    subst h
    refine ⟨hi.nodup, ?_, ?_, hi.nsNodup, ?_, ?_, ?_, ?_⟩
    · intro k v hv
      obtain ⟨h1, h2⟩ := hi.sound k v hv
      exact ⟨List.mem_append_left _ h1, h2⟩
    · intro v hv k hk
      simp only [List.mem_append, List.mem_singleton] at hv
      rcases hv with hv | rfl
      · exact hi.complete v hv k hk
      · cases hk
    · intro n' cr'
      rw [hi.nsMem]
      simp
    · intro cr' n' hg
      simp [hi.crateSound cr' n' hg]
    · intro cr' n' hm
      simp only [List.mem_append, List.mem_singleton, reduceCtorEq, or_false] at hm
      exact hi.crateComplete cr' n' hm
    · intro t tr hm
      simp only [List.mem_append, List.mem_singleton, reduceCtorEq, or_false] at hm
      exact hi.named t tr hm
  · simp only [addItem] at h
    rw [hk] at h
    cases h
  · simp only [addItem, Option.map_eq_some_iff] at h
    obtain ⟨its, hu, rfl⟩ := h
    obtain ⟨h1, h2, h3, v', h4, h5, h6⟩ := addCustom_spec hu hi.nodup (by
      intro v hv m' n' o' b' d' he
      have := custom_key_name (hi.sound _ _ hv).2 he
      simpa using this.symm)
    refine ⟨h1, ?_, ?_, hi.nsNodup, ?_, ?_, ?_, ?_⟩
    · intro k v hv
      rcases h2 _ hv with hv | he
      · obtain ⟨h1, h2⟩ := hi.sound k v hv
        exact ⟨List.mem_append_left _ h1, h2⟩
      · cases he
        exact ⟨by simp, rfl⟩
    · intro v hv k hk
      simp only [List.mem_append, List.mem_singleton] at hv
      rcases hv with hv | rfl
      · obtain ⟨w, hw, hcov⟩ := hi.complete v hv k hk
        by_cases hkk : k = ⟨.custom, crateName m, "", [n]⟩
        · subst hkk
          exact ⟨v', h4, (h6 w hw).trans hcov⟩
        · exact ⟨w, h3 _ hw hkk, hcov⟩
      · cases hk
        exact ⟨v', h4, h5⟩
    · intro n' cr'
      rw [hi.nsMem]
      simp
    · intro cr' n' hg
      simp [hi.crateSound cr' n' hg]
    · intro cr' n' hm
      simp only [List.mem_append, List.mem_singleton, reduceCtorEq, or_false] at hm
      exact hi.crateComplete cr' n' hm
    · intro t tr hm
      simp only [List.mem_append, List.mem_singleton, reduceCtorEq, or_false] at hm
      exact hi.named t tr hm
  · obtain ⟨its, hu, rfl⟩ := addItem_plain hk hc h
    have hns : ∀ a b, i ≠ .namespace_ a b := by rintro a b rfl; cases hk
    refine ⟨insertUnique_nodup hu hi.nodup, ?_, ?_, hi.nsNodup, ?_, ?_, ?_, ?_⟩
    · intro k' v hv
      rcases (insertUnique_mem hu).1 hv with hv | he
      · obtain ⟨h1, h2⟩ := hi.sound k' v hv
        exact ⟨List.mem_append_left _ h1, h2⟩
      · cases he
        exact ⟨by simp, hk⟩
    · intro v hv k' hk'
      simp only [List.mem_append, List.mem_singleton] at hv
      rcases hv with hv | rfl
      · obtain ⟨w, hw, hcov⟩ := hi.complete v hv k' hk'
        exact ⟨w, (insertUnique_mem hu).2 (.inl hw), hcov⟩
      · rw [hk] at hk'
        cases hk'
        exact ⟨_, (insertUnique_mem hu).2 (.inr rfl), .refl _⟩
    · intro n' cr'
      rw [hi.nsMem]
      simp only [List.mem_append, List.mem_singleton]
      exact ⟨.inl, fun h => h.resolve_right fun h => hns _ _ h.symm⟩
    · intro cr' n' hg
      simp [hi.crateSound cr' n' hg]
    · intro cr' n' hm
      simp only [List.mem_append, List.mem_singleton] at hm
      exact hi.crateComplete cr' n' (hm.resolve_right fun h => hns _ _ h.symm)
    · intro t tr hm
      simp only [List.mem_append, List.mem_singleton] at hm
      rcases hm with hm | rfl
      · exact hi.named t tr hm
      · rw [hk]
        simp

theorem Inv.all {items : List Metadata} : ∀ {l : List Metadata} {c c' : Conv}, Inv items c →
    addItems c l = some c' → Inv (items ++ l) c'
  | [], c, c', hi, h => by
    simp only [addItems, Option.some.injEq] at h
    subst h
    simpa using hi
  | i :: l, c, c', hi, h => by
    simp only [addItems, Option.bind_eq_some_iff] at h
    obtain ⟨c1, h1, h2⟩ := h
    have := Inv.all (hi.step h1) h2
    simpa using this

theorem inv_of {items : List Metadata} {c : Conv} (h : addItems {} items = some c) : Inv items c := by
  simpa using inv_nil.all h

/-- Entries are determined by their keys. -/
theorem Inv.entry {items : List Metadata} {c : Conv} (hi : Inv items c) {k : Key} {v w : Metadata}
    (hv : (k, v) ∈ c.items) (hw : (k, w) ∈ c.items) : v = w :=
  Option.some.inj ((get_of_mem hi.nodup hv).symm.trans (get_of_mem hi.nodup hw))

theorem Inv.consistent {items : List Metadata} {c : Conv} (hi : Inv items c) : Consistent items where
  namespaces := by
    intro a b n ha hb
    exact Option.some.inj ((get_of_mem hi.nsNodup ((hi.nsMem n a).2 ha)).symm.trans
      (get_of_mem hi.nsNodup ((hi.nsMem n b).2 hb)))
  impls := by
    intro t tr h hr
    exact hi.named t tr h (by rw [keyOf_role, hr]; rfl)
  roles := by
    intro i hii j hj hne hr
    cases hri : role i with
    | none => exact absurd hri hne
    | some r =>
      have hki : keyOf i = some (roleKey r) := by rw [keyOf_role, hri]; rfl
      have hkj : keyOf j = some (roleKey r) := by rw [keyOf_role, ← hr, hri]; rfl
      obtain ⟨v, hv, h1⟩ := hi.complete i hii _ hki
      obtain ⟨w, hw, h2⟩ := hi.complete j hj _ hkj
      obtain rfl := hi.entry hv hw
      rcases h1 with rfl | ⟨h1, _⟩ <;> rcases h2 with rfl | ⟨h2, _⟩
      · exact .inl rfl
      · exact .inr h2
      · exact .inr h1.symm
      · exact .inr (h1.symm.trans h2)

theorem step_ok {items : List Metadata} {c : Conv} {i : Metadata} (hi : Inv items c)
    (hc : Consistent (items ++ [i])) : (addItem c i).isSome := by
  rcases item_cases i with ⟨cr, n, rfl⟩ | ⟨m, n, s, rfl⟩ | ⟨t, tr, rfl, hk⟩ | ⟨m, n, o, b, d, rfl⟩ |
    ⟨k, hk, hcu⟩
  · simp only [addItem, Option.isSome_map]
    rw [insertUnique_isSome hi.nsNodup]
    intro cr' h
    rw [hi.nsMem] at h
    exact hc.namespaces _ _ n (by simp [h]) (by simp)
  · rfl
  · refine absurd ?_ (hc.impls t tr (by simp))
    rw [keyOf_role] at hk
    simpa using hk
  · simp only [addItem, Option.isSome_map]
    rw [addCustom_isSome hi.nodup]
    intro v hv
    obtain ⟨h1, h2⟩ := hi.sound _ _ hv
    have hr : role v = role (.customType m n o b d) := keyOf_eq_iff.1 (by rw [h2]; rfl)
    rcases hc.roles v (by simp [h1]) (.customType m n o b d) (by simp) (by rw [hr]; simp [role]) hr with
      rfl | hs
    · exact ⟨_, _, _, rfl⟩
    · cases v <;> simp only [SameCustom] at hs
      obtain ⟨rfl, rfl, rfl⟩ := hs
      exact ⟨_, _, _, rfl⟩
  · rw [addItem_isSome_plain hk hcu, insertUnique_isSome hi.nodup]
    intro v hv
    obtain ⟨h1, h2⟩ := hi.sound _ _ hv
    have hr : role v = role i := keyOf_eq_iff.1 (by rw [h2, hk])
    rcases hc.roles v (by simp [h1]) i (by simp)
      (by intro hn; rw [keyOf_role, hn] at h2; cases h2) hr with rfl | hs
    · rfl
    · cases v <;> cases i <;> simp only [SameCustom] at hs
      simp [isCustom] at hcu

theorem Consistent.mono {a b : List Metadata} (h : Consistent b) (hs : ∀ i ∈ a, i ∈ b) :
    Consistent a where
  namespaces := fun c c' n h1 h2 => h.namespaces c c' n (hs _ h1) (hs _ h2)
  impls := fun t tr h1 => h.impls t tr (hs _ h1)
  roles := fun i hi j hj => h.roles i (hs _ hi) j (hs _ hj)

theorem all_ok : ∀ {l : List Metadata} {items : List Metadata} {c : Conv}, Inv items c →
    Consistent (items ++ l) → (addItems c l).isSome
  | [], _, _, _, _ => rfl
  | i :: l, items, c, hi, hc => by
    have h1 : (addItem c i).isSome := step_ok hi (hc.mono (by
      intro x hx
      rcases List.mem_append.1 hx with h | h
      · exact List.mem_append_left _ h
      · rw [List.mem_singleton.1 h]
        simp))
    obtain ⟨c1, h1⟩ := Option.isSome_iff_exists.1 h1
    simp only [addItems, h1, Option.bind_some]
    exact all_ok (hi.step h1) (by simpa using hc)

theorem addItems_isSome {items : List Metadata} : (addItems {} items).isSome ↔ Consistent items := by
  constructor
  · intro h
    obtain ⟨c, h⟩ := Option.isSome_iff_exists.1 h
    exact (inv_of h).consistent
  · intro h
    exact all_ok inv_nil (by simpa using h)

end Verif.Gen.Assemble
