import Verif.Gen.AssembleFinal
/-
Which items a `ComponentInterface` takes, and the positions of methods of callback interfaces.
-/
namespace Verif.Gen.Assemble
open Verif.Meta

theorem changeFirst_isSome {n : String} {f : TypeDef → TypeDef} {l : List TypeDef} :
    (changeFirst n f l).isSome ↔ ∃ o ∈ l, defName o.item = some n := by
  induction l with
  | nil => simp [changeFirst]
  | cons o l ih =>
    rw [changeFirst]
    split
    · rename_i h; simp [h]
    · rename_i h; simp [ih, h]

theorem LInv.object_named {l : List Metadata} {ci : Ci} (hi : LInv l ci) {n : String} :
    (∃ o ∈ ci.objects, defName o.item = some n) ↔ ∃ j ∈ l, ∃ c, role j = some (.object c n) := by
  have : (∃ o ∈ ci.objects, defName o.item = some n) ↔ ∃ j ∈ ci.objects.map (·.item), defName j = some n := by
    grind
  rw [this, hi.objects]
  constructor
  · rintro ⟨j, hj, hn⟩
    rw [List.mem_filter] at hj
    cases j <;> simp [isObject] at hj
    simp only [defName, Option.some.injEq] at hn
    subst hn
    exact ⟨_, hj, _, rfl⟩
  · rintro ⟨j, hj, c, hc⟩
    refine ⟨j, ?_⟩
    rw [List.mem_filter]
    cases j <;> simp only [role, reduceCtorEq, Option.some.injEq, Role.object.injEq] at hc
    · exact ⟨⟨hj, rfl⟩, by rw [defName, hc.2]⟩
    case uniffiTrait t => cases t <;> cases hc
    case objectTraitImpl t tr => cases t <;> cases hc

theorem LInv.record_named {l : List Metadata} {ci : Ci} (hi : LInv l ci) {n : String} :
    (∃ o ∈ ci.records, defName o.item = some n) ↔ ∃ j ∈ l, ∃ c, role j = some (.record c n) := by
  have : (∃ o ∈ ci.records, defName o.item = some n) ↔ ∃ j ∈ ci.records.map (·.item), defName j = some n := by
    grind
  rw [this, hi.records]
  constructor
  · rintro ⟨j, hj, hn⟩
    rw [List.mem_filter] at hj
    cases j <;> simp [isRecord] at hj
    simp only [defName, Option.some.injEq] at hn
    subst hn
    exact ⟨_, hj, _, rfl⟩
  · rintro ⟨j, hj, c, hc⟩
    refine ⟨j, ?_⟩
    rw [List.mem_filter]
    cases j <;> simp only [role, reduceCtorEq, Option.some.injEq, Role.record.injEq] at hc
    · exact ⟨⟨hj, rfl⟩, by rw [defName, hc.2]⟩
    case uniffiTrait t => cases t <;> cases hc
    case objectTraitImpl t tr => cases t <;> cases hc

theorem LInv.enum_named {l : List Metadata} {ci : Ci} (hi : LInv l ci) {n : String} :
    (∃ o ∈ ci.enums, defName o.item = some n) ↔ ∃ j ∈ l, ∃ c, role j = some (.enum c n) := by
  have : (∃ o ∈ ci.enums, defName o.item = some n) ↔ ∃ j ∈ ci.enums.map (·.item), defName j = some n := by
    grind
  rw [this, hi.enums]
  constructor
  · rintro ⟨j, hj, hn⟩
    rw [List.mem_filter] at hj
    cases j <;> simp [isEnum] at hj
    simp only [defName, Option.some.injEq] at hn
    subst hn
    exact ⟨_, hj, _, rfl⟩
  · rintro ⟨j, hj, c, hc⟩
    refine ⟨j, ?_⟩
    rw [List.mem_filter]
    cases j <;> simp only [role, reduceCtorEq, Option.some.injEq, Role.enum.injEq] at hc
    · exact ⟨⟨hj, rfl⟩, by rw [defName, hc.2]⟩
    case uniffiTrait t => cases t <;> cases hc
    case objectTraitImpl t tr => cases t <;> cases hc

theorem LInv.callback_named {l : List Metadata} {ci : Ci} (hi : LInv l ci) {n : String} :
    (∃ o ∈ ci.callbacks, defName o.item = some n) ↔ ∃ j ∈ l, ∃ c, role j = some (.callback c n) := by
  have : (∃ o ∈ ci.callbacks, defName o.item = some n) ↔ ∃ j ∈ ci.callbacks.map (·.item), defName j = some n := by
    grind
  rw [this, hi.callbacks]
  constructor
  · rintro ⟨j, hj, hn⟩
    rw [List.mem_filter] at hj
    cases j <;> simp [isCallback] at hj
    simp only [defName, Option.some.injEq] at hn
    subst hn
    exact ⟨_, hj, _, rfl⟩
  · rintro ⟨j, hj, c, hc⟩
    refine ⟨j, ?_⟩
    rw [List.mem_filter]
    cases j <;> simp only [role, reduceCtorEq, Option.some.injEq, Role.callback.injEq] at hc
    · exact ⟨⟨hj, rfl⟩, by rw [defName, hc.2]⟩
    case uniffiTrait t => cases t <;> cases hc
    case objectTraitImpl t tr => cases t <;> cases hc

theorem three {l : List Metadata} {n : String} : (∃ j ∈ l, hasMethods n j) ↔
    (∃ j ∈ l, ∃ c, role j = some (.object c n)) ∨ (∃ j ∈ l, ∃ c, role j = some (.record c n)) ∨
      ∃ j ∈ l, ∃ c, role j = some (.enum c n) := by
  simp only [hasMethods]
  grind

theorem addMethod_isSome {l : List Metadata} {ci : Ci} (hi : LInv l ci) {n : String} {i : Metadata} :
    (addMethod ci n i).isSome ↔ ∃ j ∈ l, hasMethods n j := by
  rw [three, ← hi.object_named, ← hi.record_named, ← hi.enum_named]
  simp only [addMethod]
  split
  · rename_i h
    have := changeFirst_isSome.1 (Option.isSome_of_eq_some h)
    simp [this]
  · rename_i h
    have h0 := changeFirst_none h
    split
    · rename_i h2
      have := changeFirst_isSome.1 (Option.isSome_of_eq_some h2)
      simp [this]
    · rename_i h2
      have h1 := changeFirst_none h2
      rw [Option.isSome_map, changeFirst_isSome]
      grind

theorem addCtor_isSome {l : List Metadata} {ci : Ci} (hi : LInv l ci) {n : String} {i : Metadata} :
    (addCtor ci n i).isSome ↔ ∃ j ∈ l, hasMethods n j := by
  rw [three, ← hi.object_named, ← hi.record_named, ← hi.enum_named]
  simp only [addCtor]
  split
  · rename_i h
    have := changeFirst_isSome.1 (Option.isSome_of_eq_some h)
    simp [this]
  · rename_i h
    have h0 := changeFirst_none h
    split
    · rename_i h2
      have := changeFirst_isSome.1 (Option.isSome_of_eq_some h2)
      simp [this]
    · rename_i h2
      have h1 := changeFirst_none h2
      rw [Option.isSome_map, changeFirst_isSome]
      grind

theorem addBuiltin_isSome {l : List Metadata} {ci : Ci} (hi : LInv l ci) {n : String} {i : Metadata} :
    (addBuiltin ci n i).isSome ↔ ∃ j ∈ l, hasMethods n j := by
  rw [three, ← hi.object_named, ← hi.record_named, ← hi.enum_named]
  simp only [addBuiltin]
  split
  · rename_i h
    have := changeFirst_isSome.1 (Option.isSome_of_eq_some h)
    simp [this]
  · rename_i h
    have h0 := changeFirst_none h
    split
    · rename_i h2
      have := changeFirst_isSome.1 (Option.isSome_of_eq_some h2)
      simp [this]
    · rename_i h2
      have h1 := changeFirst_none h2
      rw [Option.isSome_map, changeFirst_isSome]
      grind

theorem addImpl_isSome {l : List Metadata} {ci : Ci} (hi : LInv l ci) {t : MTy} {i : Metadata} :
    (addImpl ci t i).isSome ↔ ∃ o, implOwner t = some o ∧ ∃ j ∈ l, ∃ c, role j = some (.object c o.2) := by
  simp only [addImpl]
  cases h : implOwner t with
  | none => simp
  | some o =>
    simp only [Option.bind_some, Option.isSome_map, Option.some.injEq, exists_eq_left']
    rw [changeFirst_isSome, hi.object_named]

theorem addTraitMethod_isSome {l : List Metadata} {ci : Ci} (hi : LInv l ci) (hn : (names l).Nodup)
    {t : String} {x : UInt32} {i : Metadata} : (addTraitMethod ci t x i).isSome ↔
      (∃ j ∈ l, hasMethods t j) ∨
      ((∃ j ∈ l, ∃ c, role j = some (.callback c t)) ∧ x.toNat = (l.filter (methodIn t)).length) := by
  have hd := hi.distinct hn
  simp only [addTraitMethod]
  split
  · rename_i cbi hf
    have h1 := List.mem_of_find?_eq_some hf
    have h2 := List.find?_some hf
    simp only [decide_eq_true_eq] at h2
    have hno : ¬ ∃ j ∈ l, hasMethods t j := by
      rw [three, ← hi.object_named, ← hi.record_named, ← hi.enum_named]
      rintro (h | h | h)
      · exact (hd.disjoint.1 h).2.2 cbi h1 h2
      · exact (hd.disjoint.2.1 h).2 cbi h1 h2
      · exact hd.disjoint.2.2 h cbi h1 h2
    have hcb : ∃ j ∈ l, ∃ c, role j = some (.callback c t) := hi.callback_named.1 ⟨cbi, h1, h2⟩
    have hm := (hi.members cbi (by simp [owners, h1]) t h2).2.1
    rw [hm]
    split
    · rename_i hx
      simp only [Option.isSome_none, Bool.false_eq_true, false_iff, not_or, not_and]
      exact ⟨hno, fun _ h => hx h.symm⟩
    · rename_i hx
      simp only [ne_eq, Decidable.not_not] at hx
      rw [Option.isSome_map]
      simp only [changeFirst_isSome.2 ⟨cbi, h1, h2⟩, true_iff]
      exact .inr ⟨hcb, hx.symm⟩
  · rename_i hf
    rw [List.find?_eq_none] at hf
    have hcb : ¬ ∃ j ∈ l, ∃ c, role j = some (.callback c t) := by
      rw [← hi.callback_named]
      rintro ⟨o, ho, h⟩
      exact hf o ho (by simpa using h)
    rw [addMethod_isSome hi]
    simp [hcb]

theorem addCustomDef_isSome {i : Metadata} (hc : isCustom i = true) : ∀ {cs : List Metadata},
    (∀ e ∈ cs, isCustom e = true) → (cs.map defName).Nodup →
    ((addCustomDef cs i).isSome ↔ ∀ e ∈ cs, defName e = defName i → SameCustom e i)
  | [], _, _ => by simp [addCustomDef]
  | old :: cs, hall, hn => by
    have ho := hall old (by simp)
    cases old <;> simp only [isCustom, Bool.false_eq_true] at ho
    cases i <;> simp only [isCustom, Bool.false_eq_true] at hc
    rename_i m' n' o' b' d' m n o b d
    simp only [List.map_cons, List.nodup_cons] at hn
    simp only [addCustomDef]
    by_cases hname : n' = n
    · subst hname
      simp only [if_true]
      have hrest : ∀ e ∈ cs, defName e ≠ defName (.customType m n' o b d) := by
        intro e he h
        exact hn.1 (List.mem_map.2 ⟨e, he, h⟩)
      by_cases hb : b' = b ∧ m' = m
      · simp only [hb, and_self, if_true]
        have : (if d.isSome = true ∧ d'.isNone = true then
            some (Metadata.customType m n' o' b d :: cs) else some (Metadata.customType m n' o' b d' :: cs)).isSome := by
          split <;> rfl
        simp only [this, true_iff]
        intro e he h
        rcases List.mem_cons.1 he with rfl | he
        · simp [SameCustom]
        · exact absurd h (hrest e he)
      · simp only [hb, if_false, Option.isSome_none, Bool.false_eq_true, false_iff]
        intro h
        have := h _ List.mem_cons_self rfl
        simp only [SameCustom] at this
        exact hb ⟨this.2.2, this.1⟩
    · simp only [hname, if_false, Option.isSome_map]
      rw [addCustomDef_isSome rfl (fun e he => hall e (by simp [he])) hn.2]
      simp only [List.mem_cons, forall_eq_or_imp, defName, Option.some.injEq, hname, false_implies, true_and]

theorem role_custom {j : Metadata} {c n : String} : role j = some (.custom c n) ↔
    ∃ m o b d, j = .customType m n o b d ∧ crateName m = c := by
  constructor
  · intro h
    cases j <;> simp only [role, reduceCtorEq, Option.some.injEq, Role.custom.injEq] at h
    · obtain ⟨rfl, rfl⟩ := h
      exact ⟨_, _, _, _, rfl, rfl⟩
    case uniffiTrait t => cases t <;> cases h
    case objectTraitImpl t tr => cases t <;> cases h
  · rintro ⟨m, o, b, d, rfl, rfl⟩
    rfl

theorem role_function {j : Metadata} {c n : String} : role j = some (.function c n) ↔
    ∃ f, j = .func f ∧ crateName f.modulePath = c ∧ f.name = n := by
  constructor
  · intro h
    cases j <;> simp only [role, reduceCtorEq, Option.some.injEq, Role.function.injEq] at h
    · exact ⟨_, rfl, h⟩
    case uniffiTrait t => cases t <;> cases h
    case objectTraitImpl t tr => cases t <;> cases h
  · rintro ⟨f, rfl, rfl, rfl⟩
    rfl

theorem step_isSome {l : List Metadata} {ci : Ci} {i : Metadata} (hi : LInv l ci) (hc : CInv l ci.customs)
    (hn : (names (l ++ [i])).Nodup) : (addToCi ci i).isSome ↔ FitsAfter l i := by
  have hnl : (names l).Nodup := by
    simp only [names, List.filterMap_append, List.nodup_append] at hn
    exact hn.1
  have hfresh : ∀ n, ownerName i = some n → n ∉ names l := by
    intro n hin hm
    simp only [names, List.filterMap_append, List.nodup_append] at hn
    exact hn.2.2 n hm n (by simp [hin]) rfl
  have hown : ∀ n, ownerName i = some n → ∀ o ∈ owners ci, defName o.item ≠ some n :=
    fun n h o ho he => hfresh n h (hi.mem_owner.1 ⟨o, ho, he⟩)
  cases i
  case namespace_ => simp [addToCi, FitsAfter]
  case udlFile => simp [addToCi, FitsAfter]
  case object => simp [addToCi, FitsAfter]
  case callbackInterface => simp [addToCi, FitsAfter]
  case record m n o fs d =>
    have : ¬ (ci.records.any fun o => decide (defName o.item = some n)) = true := by
      rw [List.any_eq_true]
      rintro ⟨o, ho, h⟩
      exact hown n rfl o (by simp [owners, ho]) (of_decide_eq_true h)
    simp only [addToCi, this, FitsAfter]
    simp
  case enum m n o s dt vs ne d =>
    have : ¬ (ci.enums.any fun o => decide (defName o.item = some n)) = true := by
      rw [List.any_eq_true]
      rintro ⟨o, ho, h⟩
      exact hown n rfl o (by simp [owners, ho]) (of_decide_eq_true h)
    simp only [addToCi, this, FitsAfter]
    simp
  case func f =>
    have : (ci.functions.any fun g => decide (defName g = some f.name)) = true ↔
        ∃ j ∈ l, ∃ c, role j = some (.function c f.name) := by
      rw [List.any_eq_true, hi.functions]
      constructor
      · rintro ⟨j, hj, h⟩
        rw [List.mem_filter, isFunction_iff] at hj
        obtain ⟨hjl, c, n, hr⟩ := hj
        obtain ⟨g, rfl, rfl, rfl⟩ := role_function.1 hr
        have h := of_decide_eq_true h
        simp only [defName, Option.some.injEq] at h
        exact ⟨_, hjl, _, by rw [role, h]⟩
      · rintro ⟨j, hj, c, hr⟩
        obtain ⟨g, rfl, rfl, hg⟩ := role_function.1 hr
        exact ⟨_, List.mem_filter.2 ⟨hj, isFunction_iff.2 ⟨_, _, hr⟩⟩, by simp [defName, hg]⟩
    simp only [addToCi, FitsAfter]
    split
    · rename_i h
      rw [this] at h
      obtain ⟨j, hj, c, hr⟩ := h
      simp only [Option.isSome_none, Bool.false_eq_true, false_iff]
      exact fun h => h j hj c hr
    · rename_i h
      rw [this] at h
      simp only [Option.isSome_some, true_iff]
      exact fun j hj c hr => h ⟨j, hj, c, hr⟩
  case customType m n o b d =>
    simp only [addToCi, Option.isSome_map, FitsAfter]
    rw [addCustomDef_isSome rfl (fun e he => (hc.sound e he).1) hc.nodup]
    constructor
    · intro h j hj c hr
      obtain ⟨m', o', b', d', rfl, _⟩ := role_custom.1 hr
      obtain ⟨e, he, hs, _⟩ := hc.complete _ hj rfl
      have hname : defName e = some n := by
        cases e <;> simp only [SameCustom] at hs
        simp [defName, hs.2.1]
      exact hs.symm.trans (h e he hname)
    · intro h e he hname
      obtain ⟨_, ⟨j, hj, hs⟩, _⟩ := hc.sound e he
      cases e <;> cases j <;> simp only [SameCustom] at hs
      rename_i m1 n1 o1 b1 d1 m2 n2 o2 b2 d2
      simp only [defName, Option.some.injEq] at hname
      have h3 := h _ hj (crateName m2) (role_custom.2 ⟨m2, o2, b2, d2, by rw [← hs.2.1, hname], rfl⟩)
      simp only [SameCustom] at h3 ⊢
      exact ⟨hs.1.trans h3.1, hname, hs.2.2.trans h3.2.2⟩
  case constructor c => exact addCtor_isSome hi
  case method m => exact addMethod_isSome hi
  case traitMethod t x f => exact addTraitMethod_isSome hi hnl
  case uniffiTrait t => cases t <;> exact addBuiltin_isSome hi
  case objectTraitImpl t tr =>
    simp only [addToCi]
    rw [addImpl_isSome hi]
    cases t <;> simp [implOwner, FitsAfter]

theorem all_isSome {l0 : List Metadata} : ∀ {l : List Metadata} {ci : Ci}, LInv l0 ci → CInv l0 ci.customs →
    (names (l0 ++ l)).Nodup → ((addAllToCi ci l).isSome ↔ ∀ a i b, l = a ++ i :: b → FitsAfter (l0 ++ a) i)
  | [], _, _, _, _ => by simp [addAllToCi]
  | i :: l, ci, hl, hc, hn => by
    have hn1 : (names (l0 ++ [i])).Nodup := by
      have : l0 ++ i :: l = (l0 ++ [i]) ++ l := by simp
      rw [this] at hn
      simp only [names, List.filterMap_append, List.nodup_append] at hn ⊢
      exact hn.1
    have hn0 : (names l0).Nodup := by
      simp only [names, List.filterMap_append, List.nodup_append] at hn1 ⊢
      exact hn1.1
    have hs := step_isSome hl hc hn1
    rw [addAllToCi]
    cases h : addToCi ci i with
    | none =>
      simp only [h, Option.isSome_none, Bool.false_eq_true, false_iff, Option.bind_none] at hs ⊢
      intro hall
      exact hs (by simpa using hall [] i l rfl)
    | some ci1 =>
      simp only [h, Option.isSome_some, true_iff, Option.bind_some] at hs ⊢
      rw [all_isSome (hl.step hn1 h) (hc.step (hl.distinct hn0) h) (by simpa using hn)]
      constructor
      · intro hall a j b he
        cases a with
        | nil =>
          simp only [List.nil_append, List.cons.injEq] at he
          rw [← he.1]
          simpa using hs
        | cons x a =>
          simp only [List.cons_append, List.cons.injEq] at he
          have := hall a j b he.2
          rw [← he.1]
          simpa using this
      · intro hall a j b he
        have := hall (i :: a) j b (by rw [he]; rfl)
        simpa using this

theorem isSome_iff {l : List Metadata} (hn : (names l).Nodup) :
    (addAllToCi {} l).isSome ↔ ∀ a i b, l = a ++ i :: b → FitsAfter a i := by
  have h0 : CInv [] ([] : List Metadata) := by constructor <;> simp
  simpa using all_isSome (l := l) linv_nil h0 (by simpa using hn)

theorem positions_range {p : Metadata → Bool} {f : Metadata → Nat} (l0 : List Metadata) : ∀ l : List Metadata,
    (∀ a i b, l = a ++ i :: b → p i = true → f i = ((l0 ++ a).filter p).length) →
    (l.filter p).map f = List.range' (l0.filter p).length (l.filter p).length
  | [], _ => by simp
  | i :: l, h => by
    have ih := positions_range (p := p) (f := f) (l0 ++ [i]) l (fun a j b he hj => by
      have := h (i :: a) j b (by rw [he]; rfl) hj
      simpa using this)
    by_cases hp : p i = true
    · have := h [] i l rfl hp
      simp only [List.append_nil] at this
      simp only [List.filter_cons, hp, if_true, List.map_cons, List.length_cons, List.range'_succ, this]
      rw [ih]
      simp [hp]
    · simp only [List.filter_cons, hp, if_false, Bool.false_eq_true]
      rw [ih]
      simp [hp]

end Verif.Gen.Assemble
