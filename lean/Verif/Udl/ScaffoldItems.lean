import Verif.Udl.ScaffoldLemmas
import Verif.Props.Udl
/-
Both sides agree on the items of a file.
-/
namespace Verif.Udl.File
open Verif Verif.Meta Verif.Udl Verif.Abi

/-! ### Sets -/

theorem mem_insertSorted {α : Type} (le : α → α → Bool) (x y : α) (l : List α) :
    y ∈ insertSorted le x l ↔ y = x ∨ y ∈ l := by
  induction l with
  | nil => simp [insertSorted]
  | cons z l ih =>
    simp only [insertSorted]
    split
    · simp
    · simp [ih]; grind

theorem mem_sorted {α : Type} (le : α → α → Bool) (y : α) (l : List α) :
    y ∈ sorted le l ↔ y ∈ l := by
  induction l with
  | nil => simp [sorted]
  | cons z l ih =>
    have : sorted le (z :: l) = insertSorted le z (sorted le l) := rfl
    rw [this, mem_insertSorted, ih]; simp

theorem mem_ctorsOf {items : List UItem} {n : String} {f : UFn} :
    f ∈ ctorsOf items n ↔ .constructor n f ∈ items := by
  simp only [ctorsOf, List.mem_filterMap]
  constructor
  · rintro ⟨i, hi, h⟩
    split at h
    · split at h
      · simp only [Option.some.injEq] at h; subst h; rename_i e; subst e; exact hi
      · simp at h
    · simp at h
  · intro h; exact ⟨_, h, by simp⟩

theorem mem_methodsOf {items : List UItem} {n : String} {f : UFn} :
    f ∈ objectMethods items n ↔ .method n f ∈ items := by
  rw [objectMethods, mem_sorted]
  simp only [methodsOf, List.mem_filterMap]
  constructor
  · rintro ⟨i, hi, h⟩
    split at h
    · split at h
      · simp only [Option.some.injEq] at h; subst h; rename_i e; subst e; exact hi
      · simp at h
    · simp at h
  · intro h; exact ⟨_, h, by simp⟩

theorem mem_builtinsOf {items : List UItem} {n : String} {t : UTrait} :
    t ∈ builtinsOf items n ↔ .uniffiTrait n t ∈ items := by
  simp only [builtinsOf, List.mem_filterMap]
  constructor
  · rintro ⟨i, hi, h⟩
    split at h
    · split at h
      · simp only [Option.some.injEq] at h; subst h; rename_i e; subst e; exact hi
      · simp at h
    · simp at h
  · intro h; exact ⟨_, h, by simp⟩

theorem mem_callbacks {items : List UItem} {n : String} {f : UFn} :
    f ∈ callbackMethods items n ↔ ∃ i, .traitMethod n i f ∈ items := by
  simp only [callbackMethods, List.mem_map, mem_sorted, callbacksOf, List.mem_filterMap]
  constructor
  · rintro ⟨x, ⟨i, hi, h⟩, rfl⟩
    split at h
    · split at h
      · simp only [Option.some.injEq] at h; subst h; rename_i e; subst e; exact ⟨_, hi⟩
      · simp at h
    · simp at h
  · rintro ⟨i, h⟩; exact ⟨(i, f), ⟨_, h, by simp⟩, rfl⟩

theorem hasTrait_iff {items : List UItem} {n : String} {b : Builtin} :
    hasTrait items n b = true ↔ ∃ t, .uniffiTrait n t ∈ items ∧ t.builtin = b := by
  simp [hasTrait, mem_builtinsOf]

/-! ### Errors -/

theorem throwsName_none {e : Option MTy} :
    throwsName e = none ↔ ∃ t, e = some t ∧ ¬Throwable t := by
  cases e with
  | none => simp [throwsName]
  | some t =>
    simp only [Option.some.injEq, exists_eq_left']
    constructor
    · intro h ht; cases ht <;> simp [throwsName] at h
    · intro h
      cases t with
      | enum m n => exact absurd .enum h
      | object m n i => exact absurd .object h
      | custom m n b =>
        cases b with
        | enum m n => exact absurd .customEnum h
        | object m n i => exact absurd .customObject h
        | _ => rfl
      | _ => rfl

theorem throwsName_mem {e : Option MTy} {l : List String} {n : String} (h : throwsName e = some l) :
    n ∈ l ↔ ∃ t, e = some t ∧
      ((∃ m, t = .enum m n) ∨ (∃ m k, t = .object m n k) ∨ (∃ m b, t = .custom m n b)) := by
  rw [throwsName.eq_def] at h
  split at h <;> simp only [Option.some.injEq, reduceCtorEq] at h <;> subst h <;>
    simp [eq_comm]

theorem itemErrors_none {i : UItem} :
    itemErrors i = none ↔ ∃ f t, CallableOf i f ∧ f.throws = some t ∧ ¬Throwable t := by
  constructor
  · intro h
    rw [itemErrors.eq_def] at h
    split at h
    · obtain ⟨t, h1, h2⟩ := throwsName_none.1 h; exact ⟨_, t, .func, h1, h2⟩
    · obtain ⟨t, h1, h2⟩ := throwsName_none.1 h; exact ⟨_, t, .method, h1, h2⟩
    · obtain ⟨t, h1, h2⟩ := throwsName_none.1 h; exact ⟨_, t, .traitMethod, h1, h2⟩
    · obtain ⟨t, h1, h2⟩ := throwsName_none.1 h; exact ⟨_, t, .constructor, h1, h2⟩
    · simp at h
    · simp at h
  · rintro ⟨f, t, h, h1, h2⟩
    cases h <;> exact throwsName_none.2 ⟨t, h1, h2⟩

/-- One item uses the name as an error. -/
def ItemError (n : String) (i : UItem) : Prop :=
  (∃ f e, CallableOf i f ∧ f.throws = some e ∧
    ((∃ m, e = .enum m n) ∨ (∃ m k, e = .object m n k) ∨ (∃ m b, e = .custom m n b))) ∨
  ∃ m fl r vs ne d, i = .enum m n (.error fl) r vs ne d

theorem itemErrors_mem {i : UItem} {l : List String} {n : String} (h : itemErrors i = some l) :
    n ∈ l ↔ ItemError n i := by
  rw [itemErrors.eq_def] at h
  unfold ItemError
  split at h
  · rw [throwsName_mem h]
    constructor
    · rintro ⟨t, h1, h2⟩; exact .inl ⟨_, t, .func, h1, h2⟩
    · rintro (⟨f, e, hc, h1, h2⟩ | ⟨_, _, _, _, _, _, h⟩)
      · cases hc; exact ⟨e, h1, h2⟩
      · cases h
  · rw [throwsName_mem h]
    constructor
    · rintro ⟨t, h1, h2⟩; exact .inl ⟨_, t, .method, h1, h2⟩
    · rintro (⟨f, e, hc, h1, h2⟩ | ⟨_, _, _, _, _, _, h⟩)
      · cases hc; exact ⟨e, h1, h2⟩
      · cases h
  · rw [throwsName_mem h]
    constructor
    · rintro ⟨t, h1, h2⟩; exact .inl ⟨_, t, .traitMethod, h1, h2⟩
    · rintro (⟨f, e, hc, h1, h2⟩ | ⟨_, _, _, _, _, _, h⟩)
      · cases hc; exact ⟨e, h1, h2⟩
      · cases h
  · rw [throwsName_mem h]
    constructor
    · rintro ⟨t, h1, h2⟩; exact .inl ⟨_, t, .constructor, h1, h2⟩
    · rintro (⟨f, e, hc, h1, h2⟩ | ⟨_, _, _, _, _, _, h⟩)
      · cases hc; exact ⟨e, h1, h2⟩
      · cases h
  · simp only [Option.some.injEq] at h
    subst h
    constructor
    · intro h; simp only [List.mem_singleton] at h; subst h; exact .inr ⟨_, _, _, _, _, _, rfl⟩
    · rintro (⟨f, e, hc, h1, h2⟩ | ⟨_, _, _, _, _, _, h⟩)
      · cases hc
      · cases h; simp
  · simp only [Option.some.injEq] at h
    subst h
    constructor
    · intro h; simp at h
    · rename_i hx
      rintro (⟨f, e, hc, h1, h2⟩ | ⟨_, _, _, _, _, _, h⟩)
      · cases hc <;> simp_all
      · exact (hx _ _ _ _ _ _ _ h).elim

theorem errorNames_none {items : List UItem} :
    errorNames items = none ↔ ∃ i ∈ items, itemErrors i = none := by
  induction items with
  | nil => simp [errorNames]
  | cons i is ih =>
    simp only [errorNames, List.mem_cons, exists_eq_or_imp, ← ih]
    cases itemErrors i <;> cases errorNames is <;> simp

theorem errorNames_mem {items : List UItem} {errors : List String} {n : String}
    (h : errorNames items = some errors) : n ∈ errors ↔ UsedAsError items n := by
  have hu : UsedAsError items n ↔ ∃ i ∈ items, ItemError n i := by
    unfold UsedAsError ItemError
    grind
  rw [hu]
  clear hu
  induction items generalizing errors with
  | nil => simp only [errorNames, Option.some.injEq] at h; subst h; simp
  | cons i is ih =>
    simp only [errorNames] at h
    split at h
    · rename_i a b ha hb
      simp only [Option.some.injEq] at h
      subst h
      simp only [List.mem_append, itemErrors_mem ha, ih hb, List.mem_cons, exists_eq_or_imp]
    · simp at h

/-! ### The crate of the items -/

/-- An item is in the crate. -/
def InCrate (crate : String) : UItem → Prop
  | .func f => f.modulePath = crate
  | .method _ f => f.modulePath = crate
  | .traitMethod _ _ f => f.modulePath = crate
  | .constructor _ f => f.modulePath = crate
  | .object m _ _ _ _ => m = crate
  | .callback m _ _ => m = crate
  | .record m _ _ _ _ => m = crate
  | .enum m _ _ _ _ _ _ => m = crate
  | _ => True

theorem each_right {α β : Type} {R : α → β → Prop} {l : List α} {k : List β} (h : Each R l k) :
    ∀ y ∈ k, ∃ x ∈ l, R x y := by
  induction h with
  | nil => simp
  | cons h _ ih => grind

theorem gives_inCrate {crate ns : String} {file : List Def} {d : Def} {is : List UItem}
    (h : Gives crate ns file d is) : ∀ i ∈ is, InCrate crate i := by
  have ht : ∀ {n t} {names : List String} {traits : List UItem},
      Each (TraitIs crate n t) names traits → ∀ i ∈ traits, InCrate crate i := by
    intro n t names traits h i hi
    obtain ⟨x, _, hx⟩ := each_right h i hi
    cases hx <;> trivial
  cases h with
  | namespace_ h =>
    intro i hi
    obtain ⟨f, hf, rfl⟩ := List.mem_map.1 hi
    obtain ⟨x, _, hx⟩ := each_right h f hf
    cases hx with | mk h1 h2 h3 _ _ => exact h3.inCrate
  | enum_ => intro i hi; simp only [List.mem_singleton] at hi; subst hi; rfl
  | dictionary _ _ _ h =>
    intro i hi
    rcases List.mem_append.1 hi with hi | hi
    · exact ht h i hi
    · simp only [List.mem_singleton] at hi; subst hi; rfl
  | enumInterface _ _ _ _ _ _ h =>
    intro i hi
    rcases List.mem_append.1 hi with hi | hi
    · exact ht h i hi
    · simp only [List.mem_singleton] at hi; subst hi; rfl
  | object _ _ _ _ hm _ _ h =>
    intro i hi
    rcases List.mem_append.1 hi with hi | hi
    · rcases List.mem_append.1 hi with hi | hi
      · obtain ⟨x, _, hx⟩ := each_right hm i hi
        cases hx with
        | ctor h _ => exact h.callable.inCrate
        | op h => exact h.callable.inCrate
      · exact ht h i hi
    · simp only [List.mem_singleton] at hi; subst hi; rfl
  | callback h =>
    intro i hi
    rcases List.mem_append.1 hi with hi | hi
    · obtain ⟨x, _, hx⟩ := each_right h i hi
      cases hx with | mk h => exact h.callable.inCrate
    · simp only [List.mem_singleton] at hi; subst hi; rfl
  | typedef => simp

theorem says_inCrate {crate : String} {file : List Def} {g : UGroup} (h : Says crate file g) :
    ∀ i ∈ g.items, InCrate crate i := by
  intro i hi
  rcases (h.items i).1 hi with ⟨d, _, is, hg, hi⟩ | ⟨m, n, b, rfl, _⟩
  · exact gives_inCrate hg i hi
  · trivial

/-! ### Built-in traits belong to the type they are written at -/

theorem gives_owner {crate ns : String} {file : List Def} {d : Def} {is : List UItem}
    (h : Gives crate ns file d is) {i : UItem} (hi : i ∈ is) {n : String} {ty : MTy}
    (ho : ownerType i = some (n, ty)) : Introduces crate file d n ty := by
  have ht : ∀ {n' t} {names : List String} {traits : List UItem},
      Each (TraitIs crate n' t) names traits → i ∈ traits → False := by
    intro n' t names traits h hi
    obtain ⟨x, _, hx⟩ := each_right h i hi
    cases hx <;> simp [ownerType] at ho
  cases h with
  | namespace_ h =>
    obtain ⟨f, hf, rfl⟩ := List.mem_map.1 hi
    simp [ownerType] at ho
  | enum_ =>
    simp only [List.mem_singleton] at hi; subst hi
    simp only [ownerType, Option.some.injEq, Prod.mk.injEq] at ho
    obtain ⟨rfl, rfl⟩ := ho
    exact .enum_
  | dictionary _ _ _ h =>
    rcases List.mem_append.1 hi with hi | hi
    · exact (ht h hi).elim
    · simp only [List.mem_singleton] at hi; subst hi
      simp only [ownerType, Option.some.injEq, Prod.mk.injEq] at ho
      obtain ⟨rfl, rfl⟩ := ho
      exact .dictionary
  | enumInterface he _ _ _ _ _ h =>
    rcases List.mem_append.1 hi with hi | hi
    · exact (ht h hi).elim
    · simp only [List.mem_singleton] at hi; subst hi
      simp only [ownerType, Option.some.injEq, Prod.mk.injEq] at ho
      obtain ⟨rfl, rfl⟩ := ho
      exact .enumInterface he
  | object he _ hi' _ hm _ _ h =>
    rcases List.mem_append.1 hi with hi | hi
    · rcases List.mem_append.1 hi with hi | hi
      · obtain ⟨x, _, hx⟩ := each_right hm i hi
        cases hx <;> simp [ownerType] at ho
      · exact (ht h hi).elim
    · simp only [List.mem_singleton] at hi; subst hi
      simp only [ownerType, Option.some.injEq, Prod.mk.injEq] at ho
      obtain ⟨rfl, rfl⟩ := ho
      exact .object he hi'
  | callback h =>
    rcases List.mem_append.1 hi with hi | hi
    · obtain ⟨x, _, hx⟩ := each_right h i hi
      cases hx; simp [ownerType] at ho
    · simp only [List.mem_singleton] at hi; subst hi
      simp [ownerType] at ho
  | typedef => simp at hi

theorem gives_trait {crate ns : String} {file : List Def} {d : Def} {is : List UItem}
    (h : Gives crate ns file d is) {n : String} {t : UTrait} (hi : .uniffiTrait n t ∈ is) :
    ∃ ty nm, Introduces crate file d n ty ∧ TraitIs crate n ty nm (.uniffiTrait n t) := by
  have ht : ∀ {n' ty} {names : List String} {traits : List UItem},
      Each (TraitIs crate n' ty) names traits → .uniffiTrait n t ∈ traits →
      n' = n ∧ ∃ nm, TraitIs crate n ty nm (.uniffiTrait n t) := by
    intro n' ty names traits h hi
    obtain ⟨x, _, hx⟩ := each_right h _ hi
    have hn : n' = n := by cases hx <;> rfl
    subst hn
    exact ⟨rfl, x, hx⟩
  cases h with
  | namespace_ h => obtain ⟨f, hf, h⟩ := List.mem_map.1 hi; cases h
  | enum_ => simp at hi
  | dictionary _ _ _ h =>
    rcases List.mem_append.1 hi with hi | hi
    · obtain ⟨rfl, nm, hx⟩ := ht h hi
      exact ⟨_, nm, .dictionary, hx⟩
    · simp at hi
  | enumInterface he _ _ _ _ _ h =>
    rcases List.mem_append.1 hi with hi | hi
    · obtain ⟨rfl, nm, hx⟩ := ht h hi
      exact ⟨_, nm, .enumInterface he, hx⟩
    · simp at hi
  | object he _ hi' _ hm _ _ h =>
    rcases List.mem_append.1 hi with hi | hi
    · rcases List.mem_append.1 hi with hi | hi
      · obtain ⟨x, _, hx⟩ := each_right hm _ hi
        cases hx
      · obtain ⟨rfl, nm, hx⟩ := ht h hi
        exact ⟨_, nm, .object he hi', hx⟩
    · simp at hi
  | callback h =>
    rcases List.mem_append.1 hi with hi | hi
    · obtain ⟨x, _, hx⟩ := each_right h _ hi
      cases hx
    · simp at hi
  | typedef => simp at hi

end Verif.Udl.File
