import Verif.Gen.AssembleSpec
import Verif.Gen.Assemble
/-
What a `ComponentInterface` holds after items were added.
-/
namespace Verif.Gen.Assemble
open Verif.Meta

/-- All types that can have members. -/
def owners (ci : Ci) : List TypeDef := ci.objects ++ ci.records ++ ci.enums ++ ci.callbacks

/-- A change of every type. -/
def mapOwners (g : TypeDef → TypeDef) (ci : Ci) : Ci :=
  { ci with
    objects := ci.objects.map g
    records := ci.records.map g
    enums := ci.enums.map g
    callbacks := ci.callbacks.map g }

/-- Change the type named `n`. -/
def onName (n : String) (f : TypeDef → TypeDef) (o : TypeDef) : TypeDef :=
  if defName o.item = some n then f o else o

theorem owners_map (g : TypeDef → TypeDef) (ci : Ci) : owners (mapOwners g ci) = (owners ci).map g := by
  simp [owners, mapOwners]

theorem map_onName_of_not {n : String} {f : TypeDef → TypeDef} {l : List TypeDef}
    (h : ∀ o ∈ l, defName o.item ≠ some n) : l.map (onName n f) = l := by
  conv => rhs; rw [← List.map_id l]
  refine List.map_congr_left ?_
  intro o ho
  simp [onName, h o ho]

theorem changeFirst_none {n : String} {f : TypeDef → TypeDef} : ∀ {l : List TypeDef},
    changeFirst n f l = none → ∀ o ∈ l, defName o.item ≠ some n
  | [], _ => by simp
  | o :: l, h => by
    rw [changeFirst] at h
    split at h
    · cases h
    · rename_i hne
      simp only [Option.map_eq_none_iff] at h
      intro x hx
      rcases List.mem_cons.1 hx with rfl | hx
      · exact hne
      · exact changeFirst_none h x hx

theorem changeFirst_some {n : String} {f : TypeDef → TypeDef} : ∀ {l l' : List TypeDef},
    (l.map fun o => defName o.item).Nodup → changeFirst n f l = some l' →
    l' = l.map (onName n f) ∧ ∃ o ∈ l, defName o.item = some n
  | [], _, _, h => by cases h
  | o :: l, l', hn, h => by
    simp only [List.map_cons, List.nodup_cons] at hn
    rw [changeFirst] at h
    split at h
    · rename_i he
      cases h
      refine ⟨?_, o, by simp, he⟩
      have : l.map (onName n f) = l := map_onName_of_not (by
        intro x hx hxn
        exact hn.1 (List.mem_map.2 ⟨x, hx, hxn.trans he.symm⟩))
      simp [this, onName, he]
    · rename_i hne
      simp only [Option.map_eq_some_iff] at h
      obtain ⟨l1, h1, rfl⟩ := h
      obtain ⟨rfl, x, hx, hxn⟩ := changeFirst_some hn.2 h1
      exact ⟨by simp [onName, hne], x, by simp [hx], hxn⟩

/-- The names of the types. -/
abbrev Distinct (ci : Ci) : Prop := ((owners ci).map fun o => defName o.item).Nodup

theorem Distinct.parts {ci : Ci} (h : Distinct ci) :
    (ci.objects.map fun o => defName o.item).Nodup ∧ (ci.records.map fun o => defName o.item).Nodup ∧
    (ci.enums.map fun o => defName o.item).Nodup ∧ (ci.callbacks.map fun o => defName o.item).Nodup := by
  simp only [Distinct, owners, List.map_append, List.nodup_append] at h
  exact ⟨h.1.1.1, h.1.1.2.1, h.1.2.1, h.2.1⟩

theorem Distinct.disjoint {ci : Ci} (h : Distinct ci) {n : String} :
    ((∃ o ∈ ci.objects, defName o.item = some n) →
      (∀ o ∈ ci.records, defName o.item ≠ some n) ∧ (∀ o ∈ ci.enums, defName o.item ≠ some n) ∧
      ∀ o ∈ ci.callbacks, defName o.item ≠ some n) ∧
    ((∃ o ∈ ci.records, defName o.item = some n) → (∀ o ∈ ci.enums, defName o.item ≠ some n) ∧
      ∀ o ∈ ci.callbacks, defName o.item ≠ some n) ∧
    ((∃ o ∈ ci.enums, defName o.item = some n) → ∀ o ∈ ci.callbacks, defName o.item ≠ some n) := by
  simp only [Distinct, owners, List.map_append, List.nodup_append, List.mem_append, List.mem_map] at h
  obtain ⟨⟨⟨_, _, h1⟩, _, h2⟩, _, h3⟩ := h
  refine ⟨?_, ?_, ?_⟩
  · rintro ⟨o, ho, hn⟩
    exact ⟨fun x hx he => h1 _ ⟨o, ho, rfl⟩ _ ⟨x, hx, rfl⟩ (hn.trans he.symm),
      fun x hx he => h2 _ (.inl ⟨o, ho, rfl⟩) _ ⟨x, hx, rfl⟩ (hn.trans he.symm),
      fun x hx he => h3 _ (.inl (.inl ⟨o, ho, rfl⟩)) _ ⟨x, hx, rfl⟩ (hn.trans he.symm)⟩
  · rintro ⟨o, ho, hn⟩
    exact ⟨fun x hx he => h2 _ (.inr ⟨o, ho, rfl⟩) _ ⟨x, hx, rfl⟩ (hn.trans he.symm),
      fun x hx he => h3 _ (.inl (.inr ⟨o, ho, rfl⟩)) _ ⟨x, hx, rfl⟩ (hn.trans he.symm)⟩
  · rintro ⟨o, ho, hn⟩
    exact fun x hx he => h3 _ (.inr ⟨o, ho, rfl⟩) _ ⟨x, hx, rfl⟩ (hn.trans he.symm)

/-- What every function that adds a member does. -/
def Adds (ci ci' : Ci) (n : String) (f : TypeDef → TypeDef) : Prop :=
  ci' = mapOwners (onName n f) ci ∧ ∃ o ∈ owners ci, defName o.item = some n

theorem adds_objects {ci : Ci} (hd : Distinct ci) {n : String} {f : TypeDef → TypeDef}
    {l : List TypeDef} (h : changeFirst n f ci.objects = some l) :
    Adds ci { ci with objects := l } n f := by
  obtain ⟨rfl, he⟩ := changeFirst_some hd.parts.1 h
  obtain ⟨h1, h2, h3⟩ := hd.disjoint.1 he
  refine ⟨?_, ?_⟩
  · simp only [mapOwners, map_onName_of_not h1, map_onName_of_not h2, map_onName_of_not h3]
  · obtain ⟨o, ho, hn⟩ := he
    exact ⟨o, by simp [owners, ho], hn⟩

theorem adds_records {ci : Ci} (hd : Distinct ci) {n : String} {f : TypeDef → TypeDef}
    {l : List TypeDef} (h0 : ∀ o ∈ ci.objects, defName o.item ≠ some n)
    (h : changeFirst n f ci.records = some l) : Adds ci { ci with records := l } n f := by
  obtain ⟨rfl, he⟩ := changeFirst_some hd.parts.2.1 h
  obtain ⟨h2, h3⟩ := hd.disjoint.2.1 he
  refine ⟨?_, ?_⟩
  · simp only [mapOwners, map_onName_of_not h0, map_onName_of_not h2, map_onName_of_not h3]
  · obtain ⟨o, ho, hn⟩ := he
    exact ⟨o, by simp [owners, ho], hn⟩

theorem adds_enums {ci : Ci} (hd : Distinct ci) {n : String} {f : TypeDef → TypeDef}
    {l : List TypeDef} (h0 : ∀ o ∈ ci.objects, defName o.item ≠ some n)
    (h : changeFirst n f ci.enums = some l) : Adds ci { ci with enums := l } n f := by
  obtain ⟨rfl, he⟩ := changeFirst_some hd.parts.2.2.1 h
  have h3 := hd.disjoint.2.2 he
  have h1 : ∀ o ∈ ci.records, defName o.item ≠ some n := by
    intro o ho hn
    obtain ⟨x, hx, hxn⟩ := he
    exact (hd.disjoint.2.1 ⟨o, ho, hn⟩).1 x hx hxn
  refine ⟨?_, ?_⟩
  · simp only [mapOwners, map_onName_of_not h0, map_onName_of_not h1, map_onName_of_not h3]
  · obtain ⟨o, ho, hn⟩ := he
    exact ⟨o, by simp [owners, ho], hn⟩

theorem adds_callbacks {ci : Ci} (hd : Distinct ci) {n : String} {f : TypeDef → TypeDef}
    {l : List TypeDef} (h : changeFirst n f ci.callbacks = some l) :
    Adds ci { ci with callbacks := l } n f := by
  obtain ⟨rfl, he⟩ := changeFirst_some hd.parts.2.2.2 h
  have h0 : ∀ o ∈ ci.objects, defName o.item ≠ some n := by
    intro o ho hn
    obtain ⟨x, hx, hxn⟩ := he
    exact (hd.disjoint.1 ⟨o, ho, hn⟩).2.2 x hx hxn
  have h1 : ∀ o ∈ ci.records, defName o.item ≠ some n := by
    intro o ho hn
    obtain ⟨x, hx, hxn⟩ := he
    exact (hd.disjoint.2.1 ⟨o, ho, hn⟩).2 x hx hxn
  have h2 : ∀ o ∈ ci.enums, defName o.item ≠ some n := by
    intro o ho hn
    obtain ⟨x, hx, hxn⟩ := he
    exact hd.disjoint.2.2 ⟨o, ho, hn⟩ x hx hxn
  refine ⟨?_, ?_⟩
  · simp only [mapOwners, map_onName_of_not h0, map_onName_of_not h1, map_onName_of_not h2]
  · obtain ⟨o, ho, hn⟩ := he
    exact ⟨o, by simp [owners, ho], hn⟩

theorem addCtor_adds {ci ci' : Ci} (hd : Distinct ci) {n : String} {i : Metadata}
    (h : addCtor ci n i = some ci') : Adds ci ci' n fun o => { o with ctors := o.ctors ++ [i] } := by
  simp only [addCtor] at h
  split at h
  · rename_i hc; cases h; exact adds_objects hd hc
  · rename_i hc
    split at h
    · rename_i hr; cases h; exact adds_records hd (changeFirst_none hc) hr
    · simp only [Option.map_eq_some_iff] at h
      obtain ⟨l, hl, rfl⟩ := h
      exact adds_enums hd (changeFirst_none hc) hl

theorem addMethod_adds {ci ci' : Ci} (hd : Distinct ci) {n : String} {i : Metadata}
    (h : addMethod ci n i = some ci') :
    Adds ci ci' n fun o => { o with methods := o.methods ++ [i] } := by
  simp only [addMethod] at h
  split at h
  · rename_i hc; cases h; exact adds_objects hd hc
  · rename_i hc
    split at h
    · rename_i hr; cases h; exact adds_records hd (changeFirst_none hc) hr
    · simp only [Option.map_eq_some_iff] at h
      obtain ⟨l, hl, rfl⟩ := h
      exact adds_enums hd (changeFirst_none hc) hl

theorem addBuiltin_adds {ci ci' : Ci} (hd : Distinct ci) {n : String} {i : Metadata}
    (h : addBuiltin ci n i = some ci') :
    Adds ci ci' n fun o => { o with builtins := o.builtins ++ [i] } := by
  simp only [addBuiltin] at h
  split at h
  · rename_i hc; cases h; exact adds_objects hd hc
  · rename_i hc
    split at h
    · rename_i hr; cases h; exact adds_enums hd (changeFirst_none hc) hr
    · simp only [Option.map_eq_some_iff] at h
      obtain ⟨l, hl, rfl⟩ := h
      exact adds_records hd (changeFirst_none hc) hl

theorem addTraitMethod_adds {ci ci' : Ci} (hd : Distinct ci) {n : String} {x : UInt32} {i : Metadata}
    (h : addTraitMethod ci n x i = some ci') :
    Adds ci ci' n fun o => { o with methods := o.methods ++ [i] } := by
  simp only [addTraitMethod] at h
  split at h
  · split at h
    · cases h
    · simp only [Option.map_eq_some_iff] at h
      obtain ⟨l, hl, rfl⟩ := h
      exact adds_callbacks hd hl
  · exact addMethod_adds hd h

theorem addImpl_adds {ci ci' : Ci} (hd : Distinct ci) {t : MTy} {i : Metadata}
    (h : addImpl ci t i = some ci') : ∃ o, implOwner t = some o ∧
      Adds ci ci' o.2 fun o => { o with impls := o.impls ++ [i] } := by
  simp only [addImpl, Option.bind_eq_some_iff, Option.map_eq_some_iff] at h
  obtain ⟨o, ho, l, hl, rfl⟩ := h
  exact ⟨o, ho, adds_objects hd hl⟩

/-! ### The invariant -/

/-- An object, a record, an enum, a callback interface. -/
def isObject (i : Metadata) : Bool := match i with | .object .. => true | _ => false
def isRecord (i : Metadata) : Bool := match i with | .record .. => true | _ => false
def isEnum (i : Metadata) : Bool := match i with | .enum .. => true | _ => false
def isCallback (i : Metadata) : Bool := match i with | .callbackInterface .. => true | _ => false

/-- What the interface holds. -/
structure LInv (l : List Metadata) (ci : Ci) : Prop where
  functions : ci.functions = l.filter isFunction
  objects : ci.objects.map (·.item) = l.filter isObject
  records : ci.records.map (·.item) = l.filter isRecord
  enums : ci.enums.map (·.item) = l.filter isEnum
  callbacks : ci.callbacks.map (·.item) = l.filter isCallback
  members : ∀ o ∈ owners ci, ∀ n, defName o.item = some n →
    o.ctors = l.filter (ctorIn n) ∧ o.methods = l.filter (methodIn n) ∧
    o.builtins = l.filter (builtinIn n) ∧ o.impls = l.filter (implIn n)
  owned : ∀ i ∈ l, ∀ n, memberIn n i = true → ∃ o ∈ owners ci, defName o.item = some n

theorem linv_nil : LInv [] {} := by
  constructor <;> simp [owners]

/-- The names of types of a list of items. -/
def names (l : List Metadata) : List String := l.filterMap ownerName

theorem ownerName_defName {i : Metadata} (h : isObject i ∨ isRecord i ∨ isEnum i ∨ isCallback i) :
    ownerName i = defName i := by
  cases i <;> simp [isObject, isRecord, isEnum, isCallback] at h <;> rfl

theorem LInv.distinct {l : List Metadata} {ci : Ci} (hi : LInv l ci) (hn : (names l).Nodup) :
    Distinct ci := by
  have key : ((owners ci).map (·.item)).Perm (l.filter fun i => (ownerName i).isSome) := by
    simp only [owners, List.map_append, hi.objects, hi.records, hi.enums, hi.callbacks]
    clear hi hn
    induction l with
    | nil => exact .refl _
    | cons i l ih =>
      cases i
      case object =>
        simp only [List.filter_cons, isObject, isRecord, isEnum, isCallback, ownerName, role,
          if_true, Option.isSome_some, Bool.false_eq_true, if_false, List.cons_append]
        exact ih.cons _
      case record =>
        simp only [List.filter_cons, isObject, isRecord, isEnum, isCallback, ownerName, role,
          if_true, Option.isSome_some, Bool.false_eq_true, if_false, List.cons_append, List.append_assoc]
        refine (List.perm_middle).trans ?_
        refine List.Perm.cons _ ?_
        have ih' := ih
        simp only [List.append_assoc] at ih'
        exact ih'
      case enum =>
        simp only [List.filter_cons, isObject, isRecord, isEnum, isCallback, ownerName, role,
          if_true, Option.isSome_some, Bool.false_eq_true, if_false, List.cons_append, List.append_assoc]
        rw [← List.append_assoc]
        refine (List.perm_middle).trans ?_
        refine List.Perm.cons _ ?_
        rw [List.append_assoc]
        have ih' := ih
        simp only [List.append_assoc] at ih'
        exact ih'
      case callbackInterface =>
        simp only [List.filter_cons, isObject, isRecord, isEnum, isCallback, ownerName, role,
          if_true, Option.isSome_some, Bool.false_eq_true, if_false]
        refine (List.perm_middle).trans ?_
        exact ih.cons _
      case uniffiTrait u =>
        cases u <;>
        simpa only [List.filter_cons, isObject, isRecord, isEnum, isCallback, ownerName, role,
          Option.isSome_none, Bool.false_eq_true, if_false] using ih
      case objectTraitImpl t tr =>
        cases t <;>
        simpa only [List.filter_cons, isObject, isRecord, isEnum, isCallback, ownerName, role,
          Option.isSome_none, Bool.false_eq_true, if_false] using ih
      all_goals
        simpa only [List.filter_cons, isObject, isRecord, isEnum, isCallback, ownerName, role,
          Option.isSome_none, Bool.false_eq_true, if_false] using ih
  have hnn : (l.filter fun i => (ownerName i).isSome).map ownerName = (names l).map some := by
    clear key hn hi
    induction l with
    | nil => rfl
    | cons i l ih =>
      cases h : ownerName i <;> simp [List.filter_cons, names, h] <;> simpa [names] using ih
  have h1 : ((owners ci).map fun o => defName o.item) = ((owners ci).map (·.item)).map ownerName := by
    rw [List.map_map]
    refine List.map_congr_left ?_
    intro o ho
    refine (ownerName_defName ?_).symm
    simp only [owners, List.mem_append] at ho
    rcases ho with ((ho | ho) | ho) | ho
    · have := List.mem_map_of_mem (f := TypeDef.item) ho
      rw [hi.objects, List.mem_filter] at this
      exact .inl this.2
    · have := List.mem_map_of_mem (f := TypeDef.item) ho
      rw [hi.records, List.mem_filter] at this
      exact .inr (.inl this.2)
    · have := List.mem_map_of_mem (f := TypeDef.item) ho
      rw [hi.enums, List.mem_filter] at this
      exact .inr (.inr (.inl this.2))
    · have := List.mem_map_of_mem (f := TypeDef.item) ho
      rw [hi.callbacks, List.mem_filter] at this
      exact .inr (.inr (.inr this.2))
  rw [Distinct, h1, (key.map ownerName).nodup_iff, hnn]
  exact List.Pairwise.map _ (fun a b h => by simpa using h) hn

/-- An item that is not a member. -/
theorem LInv.members_same {l : List Metadata} {ci : Ci} (hi : LInv l ci) {i : Metadata}
    (h : ∀ n, memberIn n i = false) {o : TypeDef} (ho : o ∈ owners ci) {n : String}
    (hn : defName o.item = some n) :
    o.ctors = (l ++ [i]).filter (ctorIn n) ∧ o.methods = (l ++ [i]).filter (methodIn n) ∧
    o.builtins = (l ++ [i]).filter (builtinIn n) ∧ o.impls = (l ++ [i]).filter (implIn n) := by
  have := h n
  simp only [memberIn, Bool.or_eq_false_iff] at this
  obtain ⟨⟨⟨h1, h2⟩, h3⟩, h4⟩ := this
  have hm := hi.members o ho n hn
  simpa [List.filter_append, h1, h2, h3, h4] using hm

/-- No item so far is a member of a type that is not there. -/
theorem LInv.no_members {l : List Metadata} {ci : Ci} (hi : LInv l ci) {n : String}
    (h : ∀ o ∈ owners ci, defName o.item ≠ some n) :
    l.filter (ctorIn n) = [] ∧ l.filter (methodIn n) = [] ∧ l.filter (builtinIn n) = [] ∧
      l.filter (implIn n) = [] := by
  have key : ∀ i ∈ l, memberIn n i = false := by
    intro i hil
    cases hm : memberIn n i with
    | false => rfl
    | true =>
      obtain ⟨o, ho, hn⟩ := hi.owned i hil n hm
      exact absurd hn (h o ho)
  simp only [memberIn, Bool.or_eq_false_iff] at key
  simp only [List.filter_eq_nil_iff, Bool.not_eq_true]
  exact ⟨fun i h => (key i h).1.1.1, fun i h => (key i h).1.1.2, fun i h => (key i h).1.2,
    fun i h => (key i h).2⟩

/-- Adding a member to the type named `n`. -/
theorem LInv.add {l : List Metadata} {ci ci' : Ci} (hi : LInv l ci) {i : Metadata} {n : String}
    {f : TypeDef → TypeDef} (ha : Adds ci ci' n f) (hf : ∀ o, (f o).item = o.item)
    (hm : ∀ m, memberIn m i = decide (m = n))
    (hs : ∀ o, o.ctors = l.filter (ctorIn n) ∧ o.methods = l.filter (methodIn n) ∧
      o.builtins = l.filter (builtinIn n) ∧ o.impls = l.filter (implIn n) →
      (f o).ctors = (l ++ [i]).filter (ctorIn n) ∧ (f o).methods = (l ++ [i]).filter (methodIn n) ∧
      (f o).builtins = (l ++ [i]).filter (builtinIn n) ∧ (f o).impls = (l ++ [i]).filter (implIn n))
    (hk : isFunction i = false ∧ isObject i = false ∧ isRecord i = false ∧ isEnum i = false ∧
      isCallback i = false) : LInv (l ++ [i]) ci' := by
  obtain ⟨rfl, o0, ho0, hn0⟩ := ha
  have hg : ∀ o, (onName n f o).item = o.item := by
    intro o
    rw [onName]
    split
    · exact hf o
    · rfl
  have hgm : ∀ l : List TypeDef, (l.map (onName n f)).map (·.item) = l.map (·.item) := by
    intro l
    rw [List.map_map]
    exact List.map_congr_left fun o _ => hg o
  obtain ⟨k1, k2, k3, k4, k5⟩ := hk
  constructor
  · simp [mapOwners, hi.functions, k1]
  · simp only [mapOwners, hgm]; simp [hi.objects, k2]
  · simp only [mapOwners, hgm]; simp [hi.records, k3]
  · simp only [mapOwners, hgm]; simp [hi.enums, k4]
  · simp only [mapOwners, hgm]; simp [hi.callbacks, k5]
  · intro o' ho' m hm'
    rw [owners_map, List.mem_map] at ho'
    obtain ⟨o, ho, rfl⟩ := ho'
    rw [hg] at hm'
    rw [onName]
    split
    · rename_i he
      rw [he] at hm'
      cases hm'
      exact hs o (hi.members o ho n he)
    · rename_i he
      have hmn : m ≠ n := by rintro rfl; exact he hm'
      have hmf : memberIn m i = false := by rw [hm]; simp [hmn]
      simp only [memberIn, Bool.or_eq_false_iff] at hmf
      obtain ⟨⟨⟨h1, h2⟩, h3⟩, h4⟩ := hmf
      have := hi.members o ho m hm'
      simpa [List.filter_append, h1, h2, h3, h4] using this
  · intro j hj m hjm
    rw [owners_map]
    rw [List.mem_append, List.mem_singleton] at hj
    rcases hj with hj | rfl
    · obtain ⟨o, ho, hn⟩ := hi.owned j hj m hjm
      exact ⟨_, List.mem_map_of_mem ho, by rw [hg]; exact hn⟩
    · rw [hm, decide_eq_true_eq] at hjm
      subst hjm
      exact ⟨_, List.mem_map_of_mem ho0, by rw [hg]; exact hn0⟩

theorem LInv.mem_owner {l : List Metadata} {ci : Ci} (hi : LInv l ci) {n : String} :
    (∃ o ∈ owners ci, defName o.item = some n) ↔ n ∈ names l := by
  simp only [names, List.mem_filterMap]
  constructor
  · rintro ⟨o, ho, hn⟩
    simp only [owners, List.mem_append] at ho
    have : o.item ∈ l ∧ ownerName o.item = some n := by
      rcases ho with ((ho | ho) | ho) | ho
      · have := List.mem_map_of_mem (f := TypeDef.item) ho
        rw [hi.objects, List.mem_filter] at this
        exact ⟨this.1, (ownerName_defName (.inl this.2)).trans hn⟩
      · have := List.mem_map_of_mem (f := TypeDef.item) ho
        rw [hi.records, List.mem_filter] at this
        exact ⟨this.1, (ownerName_defName (.inr (.inl this.2))).trans hn⟩
      · have := List.mem_map_of_mem (f := TypeDef.item) ho
        rw [hi.enums, List.mem_filter] at this
        exact ⟨this.1, (ownerName_defName (.inr (.inr (.inl this.2)))).trans hn⟩
      · have := List.mem_map_of_mem (f := TypeDef.item) ho
        rw [hi.callbacks, List.mem_filter] at this
        exact ⟨this.1, (ownerName_defName (.inr (.inr (.inr this.2)))).trans hn⟩
    exact ⟨o.item, this⟩
  · rintro ⟨i, hil, hn⟩
    cases i
    case object a b c d e =>
      have : Metadata.object a b c d e ∈ ci.objects.map (·.item) := by
        rw [hi.objects, List.mem_filter]; exact ⟨hil, rfl⟩
      obtain ⟨o, ho, he⟩ := List.mem_map.1 this
      exact ⟨o, by simp [owners, ho], by rw [he]; exact hn⟩
    case record a b c d e =>
      have : Metadata.record a b c d e ∈ ci.records.map (·.item) := by
        rw [hi.records, List.mem_filter]; exact ⟨hil, rfl⟩
      obtain ⟨o, ho, he⟩ := List.mem_map.1 this
      exact ⟨o, by simp [owners, ho], by rw [he]; exact hn⟩
    case enum a b c d e f g h =>
      have : Metadata.enum a b c d e f g h ∈ ci.enums.map (·.item) := by
        rw [hi.enums, List.mem_filter]; exact ⟨hil, rfl⟩
      obtain ⟨o, ho, he⟩ := List.mem_map.1 this
      exact ⟨o, by simp [owners, ho], by rw [he]; exact hn⟩
    case callbackInterface a b c =>
      have : Metadata.callbackInterface a b c ∈ ci.callbacks.map (·.item) := by
        rw [hi.callbacks, List.mem_filter]; exact ⟨hil, rfl⟩
      obtain ⟨o, ho, he⟩ := List.mem_map.1 this
      exact ⟨o, by simp [owners, ho], by rw [he]; exact hn⟩
    case uniffiTrait u => cases u <;> simp [ownerName, role] at hn
    case objectTraitImpl t tr => cases t <;> simp [ownerName, role] at hn
    all_goals simp [ownerName, role] at hn

/-- Adding a type with no members. -/
theorem LInv.define {l : List Metadata} {ci ci' : Ci} (hi : LInv l ci) {i : Metadata} {n : String}
    (hd : defName i = some n) (hfresh : n ∉ names l) (hm : ∀ m, memberIn m i = false)
    (ho : ∀ o, o ∈ owners ci' ↔ o ∈ owners ci ∨ o = { item := i })
    (hf : ci'.functions = (l ++ [i]).filter isFunction)
    (h1 : ci'.objects.map (·.item) = (l ++ [i]).filter isObject)
    (h2 : ci'.records.map (·.item) = (l ++ [i]).filter isRecord)
    (h3 : ci'.enums.map (·.item) = (l ++ [i]).filter isEnum)
    (h4 : ci'.callbacks.map (·.item) = (l ++ [i]).filter isCallback) : LInv (l ++ [i]) ci' := by
  refine ⟨hf, h1, h2, h3, h4, ?_, ?_⟩
  · intro o hoo m hom
    rcases (ho o).1 hoo with hoo | rfl
    · exact hi.members_same hm hoo hom
    · rw [hd] at hom
      cases hom
      obtain ⟨e1, e2, e3, e4⟩ := hi.no_members (n := n) (by
        intro o ho hn
        exact hfresh (hi.mem_owner.1 ⟨o, ho, hn⟩))
      have := hm n
      simp only [memberIn, Bool.or_eq_false_iff] at this
      obtain ⟨⟨⟨m1, m2⟩, m3⟩, m4⟩ := this
      simp [List.filter_append, e1, e2, e3, e4, m1, m2, m3, m4]
  · intro j hj m hjm
    rw [List.mem_append, List.mem_singleton] at hj
    rcases hj with hj | rfl
    · obtain ⟨o, hoo, hn⟩ := hi.owned j hj m hjm
      exact ⟨o, (ho o).2 (.inl hoo), hn⟩
    · rw [hm] at hjm
      cases hjm

theorem LInv.skip {l : List Metadata} {ci ci' : Ci} (hi : LInv l ci) {i : Metadata}
    (hm : ∀ m, memberIn m i = false) (ho : owners ci' = owners ci)
    (he : ci'.objects = ci.objects ∧ ci'.records = ci.records ∧ ci'.enums = ci.enums ∧
      ci'.callbacks = ci.callbacks)
    (hf : ci'.functions = (l ++ [i]).filter isFunction)
    (hk : isObject i = false ∧ isRecord i = false ∧ isEnum i = false ∧ isCallback i = false) :
    LInv (l ++ [i]) ci' := by
  obtain ⟨e1, e2, e3, e4⟩ := he
  obtain ⟨k2, k3, k4, k5⟩ := hk
  refine ⟨hf, ?_, ?_, ?_, ?_, ?_, ?_⟩
  · simp [e1, hi.objects, k2]
  · simp [e2, hi.records, k3]
  · simp [e3, hi.enums, k4]
  · simp [e4, hi.callbacks, k5]
  · intro o hoo m hom
    rw [ho] at hoo
    exact hi.members_same hm hoo hom
  · intro j hj m hjm
    rw [ho]
    rw [List.mem_append, List.mem_singleton] at hj
    rcases hj with hj | rfl
    · exact hi.owned j hj m hjm
    · rw [hm] at hjm
      cases hjm

theorem LInv.step {l : List Metadata} {ci ci' : Ci} {i : Metadata} (hi : LInv l ci)
    (hn : (names (l ++ [i])).Nodup) (h : addToCi ci i = some ci') : LInv (l ++ [i]) ci' := by
  have hnl : (names l).Nodup := by
    simp only [names, List.filterMap_append, List.nodup_append] at hn
    exact hn.1
  have hfresh : ∀ n, ownerName i = some n → n ∉ names l := by
    intro n hin hm
    simp only [names, List.filterMap_append, List.nodup_append] at hn
    exact hn.2.2 n hm n (by simp [hin]) rfl
  have hd := hi.distinct hnl
  cases i
  case namespace_ => cases h
  case udlFile =>
    cases h
    exact hi.skip (fun _ => rfl) rfl ⟨rfl, rfl, rfl, rfl⟩ (by simp [hi.functions, isFunction, role])
      ⟨rfl, rfl, rfl, rfl⟩
  case func f =>
    simp only [addToCi] at h
    split at h
    · cases h
    · cases h
      exact hi.skip (fun _ => rfl) rfl ⟨rfl, rfl, rfl, rfl⟩ (by simp [hi.functions]; rfl)
        ⟨rfl, rfl, rfl, rfl⟩
  case customType =>
    simp only [addToCi, Option.map_eq_some_iff] at h
    obtain ⟨cs, _, rfl⟩ := h
    exact hi.skip (fun _ => rfl) rfl ⟨rfl, rfl, rfl, rfl⟩ (by simp [hi.functions, isFunction, role])
      ⟨rfl, rfl, rfl, rfl⟩
  case record m n o fs d =>
    simp only [addToCi] at h
    split at h
    · cases h
    · cases h
      refine hi.define (n := n) rfl (hfresh n rfl) (fun _ => rfl) ?_ ?_ ?_ ?_ ?_ ?_
      · intro o; simp only [owners, List.mem_append, List.mem_singleton]; grind
      · simp [hi.functions, isFunction, role]
      · simp [hi.objects, isObject]
      · simp [hi.records]; rfl
      · simp [hi.enums, isEnum]
      · simp [hi.callbacks, isCallback]
  case enum m n o s dt vs ne d =>
    simp only [addToCi] at h
    split at h
    · cases h
    · cases h
      refine hi.define (n := n) rfl (hfresh n rfl) (fun _ => rfl) ?_ ?_ ?_ ?_ ?_ ?_
      · intro o; simp only [owners, List.mem_append, List.mem_singleton]; grind
      · simp [hi.functions, isFunction, role]
      · simp [hi.objects, isObject]
      · simp [hi.records, isRecord]
      · simp [hi.enums]; rfl
      · simp [hi.callbacks, isCallback]
  case object m n o im d =>
    cases h
    refine hi.define (n := n) rfl (hfresh n rfl) (fun _ => rfl) ?_ ?_ ?_ ?_ ?_ ?_
    · intro o; simp only [owners, List.mem_append, List.mem_singleton]; grind
    · simp [hi.functions, isFunction, role]
    · simp [hi.objects]; rfl
    · simp [hi.records, isRecord]
    · simp [hi.enums, isEnum]
    · simp [hi.callbacks, isCallback]
  case callbackInterface m n d =>
    cases h
    refine hi.define (n := n) rfl (hfresh n rfl) (fun _ => rfl) ?_ ?_ ?_ ?_ ?_ ?_
    · intro o; simp only [owners, List.mem_append, List.mem_singleton]; grind
    · simp [hi.functions, isFunction, role]
    · simp [hi.objects, isObject]
    · simp [hi.records, isRecord]
    · simp [hi.enums, isEnum]
    · simp [hi.callbacks]; rfl
  case constructor c =>
    refine hi.add (addCtor_adds hd h) (fun _ => rfl) ?_ ?_ ⟨rfl, rfl, rfl, rfl, rfl⟩
    · intro m; rw [Bool.eq_iff_iff]; simp [memberIn, ctorIn, methodIn, builtinIn, implIn, role, eq_comm]
    · rintro o ⟨h1, h2, h3, h4⟩
      simp [List.filter_append, ctorIn, methodIn, builtinIn, implIn, role, h1, h2, h3, h4]
  case method m =>
    refine hi.add (addMethod_adds hd h) (fun _ => rfl) ?_ ?_ ⟨rfl, rfl, rfl, rfl, rfl⟩
    · intro m; rw [Bool.eq_iff_iff]; simp [memberIn, ctorIn, methodIn, builtinIn, implIn, role, eq_comm]
    · rintro o ⟨h1, h2, h3, h4⟩
      simp [List.filter_append, ctorIn, methodIn, builtinIn, implIn, role, h1, h2, h3, h4]
  case traitMethod t x f =>
    refine hi.add (addTraitMethod_adds hd h) (fun _ => rfl) ?_ ?_ ⟨rfl, rfl, rfl, rfl, rfl⟩
    · intro m; rw [Bool.eq_iff_iff]; simp [memberIn, ctorIn, methodIn, builtinIn, implIn, role, eq_comm]
    · rintro o ⟨h1, h2, h3, h4⟩
      simp [List.filter_append, ctorIn, methodIn, builtinIn, implIn, role, h1, h2, h3, h4]
  case uniffiTrait t =>
    cases t <;>
    · refine hi.add (addBuiltin_adds hd h) (fun _ => rfl) ?_ ?_ ⟨rfl, rfl, rfl, rfl, rfl⟩
      · intro m; rw [Bool.eq_iff_iff]; simp [memberIn, ctorIn, methodIn, builtinIn, implIn, role, firstMethod]; exact eq_comm.trans decide_eq_true_iff.symm
      · rintro o ⟨h1, h2, h3, h4⟩
        simp [List.filter_append, ctorIn, methodIn, builtinIn, implIn, role, firstMethod, h1, h2, h3, h4]
  case objectTraitImpl t tr =>
    obtain ⟨o, ho, ha⟩ := addImpl_adds hd h
    cases t <;> simp only [implOwner, reduceCtorEq, Option.some.injEq] at ho <;> subst ho <;>
    · refine hi.add ha (fun _ => rfl) ?_ ?_ ⟨rfl, rfl, rfl, rfl, rfl⟩
      · intro m; rw [Bool.eq_iff_iff]; simp [memberIn, ctorIn, methodIn, builtinIn, implIn, role, eq_comm]
      · rintro o ⟨h1, h2, h3, h4⟩
        simp [List.filter_append, ctorIn, methodIn, builtinIn, implIn, role, h1, h2, h3, h4]

theorem LInv.all {l0 : List Metadata} : ∀ {l : List Metadata} {ci ci' : Ci}, LInv l0 ci →
    (names (l0 ++ l)).Nodup → addAllToCi ci l = some ci' → LInv (l0 ++ l) ci'
  | [], ci, ci', hi, _, h => by
    cases h
    simpa using hi
  | i :: l, ci, ci', hi, hn, h => by
    simp only [addAllToCi, Option.bind_eq_some_iff] at h
    obtain ⟨c1, h1, h2⟩ := h
    have hn' : (names (l0 ++ [i])).Nodup := by
      have : l0 ++ i :: l = (l0 ++ [i]) ++ l := by simp
      rw [this] at hn
      simp only [names, List.filterMap_append] at hn ⊢
      exact (List.nodup_append.1 hn).1
    have := LInv.all (hi.step hn' h1) (by simpa using hn) h2
    simpa using this

theorem linv_of {l : List Metadata} {ci : Ci} (hn : (names l).Nodup)
    (h : addAllToCi {} l = some ci) : LInv l ci := by
  simpa using linv_nil.all (by simpa using hn) h

end Verif.Gen.Assemble
