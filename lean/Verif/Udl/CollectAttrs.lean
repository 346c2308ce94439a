import Verif.Udl.Collect
import Verif.Udl.CollectSpec
/-
Lemmas about reading attributes.
-/
namespace Verif.Udl.File
open Verif.Meta Verif.Udl

theorem bind_ok {α β : Type} {x : Res α} {f : α → Res β} {b : β} :
    (x >>= f) = .ok b ↔ ∃ a, x = .ok a ∧ f a = .ok b := by
  cases x <;> simp [bind, Except.bind]

theorem check_ok {b : Bool} {u : Unit} : check b = .ok u ↔ b = true := by
  cases b <;> simp [check, bail]

theorem need_ok {α : Type} {o : Option α} {a : α} : need o = .ok a ↔ o = some a := by
  cases o <;> simp [need, bail]

theorem ok_ok {α : Type} {a b : α} : (Except.ok a : Res α) = .ok b ↔ a = b := by simp

theorem bail_ok {α : Type} {a : α} : (bail : Res α) = .ok a ↔ False := by simp [bail]

theorem Each.iff {α β : Type} {R S : α → β → Prop} {as : List α} {bs : List β}
    (h : ∀ a ∈ as, ∀ b, R a b ↔ S a b) : Each R as bs ↔ Each S as bs := by
  constructor
  · intro h1
    induction h1 with
    | nil => exact .nil
    | cons hr _ ih =>
      exact .cons ((h _ (by simp) _).1 hr) (ih fun a ha => h a (by simp [ha]))
  · intro h1
    induction h1 with
    | nil => exact .nil
    | cons hr _ ih =>
      exact .cons ((h _ (by simp) _).2 hr) (ih fun a ha => h a (by simp [ha]))

theorem mapR_ok {α β : Type} {f : α → Res β} {as : List α} {bs : List β} :
    mapR f as = .ok bs ↔ Each (fun a b => f a = .ok b) as bs := by
  induction as generalizing bs with
  | nil =>
    simp only [mapR, ok_ok]
    constructor
    · rintro rfl; exact .nil
    · rintro ⟨⟩; rfl
  | cons a as ih =>
    simp only [mapR, bind_ok, ok_ok]
    constructor
    · rintro ⟨b, hb, cs, hcs, rfl⟩
      exact .cons hb (ih.1 hcs)
    · intro h
      cases h with
      | cons hb hcs => exact ⟨_, hb, _, ih.2 hcs, rfl⟩

theorem Each.mem_right {α β : Type} {R : α → β → Prop} {as : List α} {bs : List β}
    (h : Each R as bs) {b : β} (hb : b ∈ bs) : ∃ a ∈ as, R a b := by
  induction h with
  | nil => simp at hb
  | cons hr _ ih => grind

theorem Each.mem_left {α β : Type} {R : α → β → Prop} {as : List α} {bs : List β}
    (h : Each R as bs) {a : α} (ha : a ∈ as) : ∃ b ∈ bs, R a b := by
  induction h with
  | nil => simp at ha
  | cons hr _ ih => grind

theorem Each.length {α β : Type} {R : α → β → Prop} {as : List α} {bs : List β}
    (h : Each R as bs) : as.length = bs.length := by
  induction h with
  | nil => rfl
  | cons hr _ ih => simp [ih]

theorem Each.exists {α β : Type} {R : α → β → Prop} {as : List α}
    (h : ∀ a ∈ as, ∃ b, R a b) : ∃ bs, Each R as bs := by
  induction as with
  | nil => exact ⟨[], .nil⟩
  | cons a as ih =>
    obtain ⟨b, hb⟩ := h a (by simp)
    obtain ⟨bs, hbs⟩ := ih fun x hx => h x (by simp [hx])
    exact ⟨b :: bs, .cons hb hbs⟩

/-- How an attribute is written. -/
def spell : Attribute → Attr → Prop
  | .byRef, a => a = .noArgs "ByRef"
  | .byMutRef, a => a = .noArgs "ByMutRef"
  | .enum, a => a = .noArgs "Enum"
  | .error, a => a = .noArgs "Error"
  | .custom none, a => a = .noArgs "Custom"
  | .trait, a => a = .noArgs "Trait"
  | .withForeign, a => a = .noArgs "WithForeign"
  | .async, a => a = .noArgs "Async"
  | .nonExhaustive, a => a = .noArgs "NonExhaustive"
  | .remote, a => a = .noArgs "Remote"
  | .name n, a => ∃ q, a = .ident "Name" q n
  | .throws n, a => ∃ q, a = .ident "Throws" q n
  | .selfByArc, a => a = .ident "Self" false "ByArc"
  | .external c, a => ∃ q, a = .ident "External" q c
  | .custom (some c), a => ∃ q, a = .ident "Custom" q c
  | .traits l, a => a = .identList "Traits" l

theorem toAttribute_ok {a : Attr} {x : Attribute} : toAttribute a = .ok x ↔ spell x a := by
  constructor
  · intro h
    unfold toAttribute at h
    repeat' split at h
    all_goals simp [bail] at h
    all_goals subst h
    all_goals simp_all [spell]
  · intro h
    cases x with
    | custom o => cases o <;> simp only [spell] at h <;> first
        | (obtain ⟨q, rfl⟩ := h; simp [toAttribute])
        | (subst h; simp [toAttribute])
    | _ => simp only [spell] at h <;> first
        | (obtain ⟨q, rfl⟩ := h; simp [toAttribute])
        | (subst h; simp [toAttribute])

theorem noDuplicates_iff {seen l : List Attr} :
    noDuplicates seen l = true ↔ l.Nodup ∧ ∀ a ∈ l, a ∉ seen := by
  induction l generalizing seen with
  | nil => simp [noDuplicates]
  | cons a as ih =>
    simp only [noDuplicates, Bool.and_eq_true, ih, List.nodup_cons]
    simp
    grind

theorem parseAttributes_ok {valid : Attribute → Bool} {l : List Attr} {attrs : List Attribute} :
    parseAttributes valid l = .ok attrs ↔
      l.Nodup ∧ Each (fun a x => spell x a) l attrs ∧ ∀ x ∈ attrs, valid x = true := by
  simp only [parseAttributes, bind_ok, check_ok, ok_ok, mapR_ok, noDuplicates_iff, toAttribute_ok,
    List.all_eq_true]
  simp

/-- What an attribute list was read as. -/
structure Parsed (as : Attrs) (attrs : List Attribute) : Prop where
  each : Each (fun a x => spell x a) (listed as) attrs

theorem spell_inj {a b : Attr} {x : Attribute} (hx : ∀ n, x ≠ .name n) (hx1 : ∀ n, x ≠ .throws n)
    (hx2 : ∀ n, x ≠ .external n) (hx3 : ∀ n, x ≠ .custom (some n)) (ha : spell x a)
    (hb : spell x b) : a = b := by
  cases x with
  | custom o => cases o <;> simp_all [spell]
  | _ => simp_all [spell]

theorem spell_fun {a : Attr} {x y : Attribute} (hx : spell x a) (hy : spell y a) : x = y := by
  have h1 := toAttribute_ok.2 hx
  have h2 := toAttribute_ok.2 hy
  rw [h1] at h2
  simpa using h2

/-- A name that stands for an attribute. -/
theorem Parsed.marked {as : Attrs} {attrs : List Attribute} (h : Parsed as attrs) {x : Attribute}
    {n : String} (hx : ∀ a, spell x a ↔ a = .noArgs n) :
    attrs.contains x = true ↔ Marked as n := by
  simp only [List.contains_iff_mem, Marked]
  constructor
  · intro hm
    obtain ⟨a, ha, hs⟩ := h.each.mem_right hm
    rwa [(hx a).1 hs] at ha
  · intro hm
    obtain ⟨y, hy, hs⟩ := h.each.mem_left hm
    have := spell_fun hs ((hx _).2 rfl)
    exact this ▸ hy

theorem Parsed.byArc {as : Attrs} {attrs : List Attribute} (h : Parsed as attrs) :
    attrs.contains .selfByArc = true ↔ .ident "Self" false "ByArc" ∈ listed as := by
  simp only [List.contains_iff_mem]
  constructor
  · intro hm
    obtain ⟨a, ha, hs⟩ := h.each.mem_right hm
    simp only [spell] at hs
    rwa [hs] at ha
  · intro hm
    obtain ⟨y, hy, hs⟩ := h.each.mem_left hm
    have : y = .selfByArc := spell_fun hs (by simp [spell])
    exact this ▸ hy

/-- The first element for which a function has a value. -/
theorem Parsed.first {as : Attrs} {attrs : List Attribute} (h : Parsed as attrs)
    {α : Type} {g : Attribute → Option α} {w : α → Attr → Prop}
    (hg : ∀ x a, spell x a → ∀ v, g x = some v ↔ w v a) (v : α) :
    attrs.findSome? g = some v ↔
      ∃ before a after, listed as = before ++ a :: after ∧ w v a ∧ ∀ b ∈ before, ∀ u, ¬w u b := by
  obtain ⟨h⟩ := h
  generalize listed as = l at h
  induction h with
  | nil => simp
  | @cons a x l' attrs' hr _ ih =>
    rw [List.findSome?_cons]
    cases hx : g x with
    | some u =>
      simp only [Option.some.injEq]
      constructor
      · rintro rfl
        exact ⟨[], a, l', by simp, (hg x a hr u).1 hx, by simp⟩
      · rintro ⟨before, b, after, he, hb, hn⟩
        cases before with
        | nil =>
          simp at he
          have := (hg x a hr v).2 (he.1 ▸ hb)
          rw [hx] at this
          simpa using this
        | cons c cs =>
          simp at he
          exact absurd ((hg x a hr u).1 hx) (hn a (by simp [he.1]) u)
    | none =>
      simp only [ih]
      have hna : ∀ u, ¬w u a := fun u hu => by
        have := (hg x a hr u).2 hu
        simp [hx] at this
      constructor
      · rintro ⟨before, b, after, rfl, hb, hn⟩
        exact ⟨a :: before, b, after, by simp, hb, by grind⟩
      · rintro ⟨before, b, after, he, hb, hn⟩
        cases before with
        | nil =>
          simp at he
          exact absurd (he.1 ▸ hb) (hna v)
        | cons c cs =>
          simp at he
          exact ⟨cs, b, after, he.2, hb, fun d hd => hn d (by simp [hd])⟩

theorem Parsed.none {as : Attrs} {attrs : List Attribute} (h : Parsed as attrs)
    {α : Type} {g : Attribute → Option α} {w : α → Attr → Prop}
    (hg : ∀ x a, spell x a → ∀ v, g x = some v ↔ w v a) :
    attrs.findSome? g = none ↔ ∀ a ∈ listed as, ∀ u, ¬w u a := by
  obtain ⟨h⟩ := h
  generalize listed as = l at h
  induction h with
  | nil => simp
  | @cons a x l' attrs' hr _ ih =>
    rw [List.findSome?_cons]
    cases hx : g x with
    | some u =>
      have := (hg x a hr u).1 hx
      simp
      exact fun h => absurd this (h u)
    | none =>
      have hna : ∀ u, ¬w u a := fun u hu => by
        have := (hg x a hr u).2 hu
        simp [hx] at this
      simp [ih, hna]

theorem Parsed.throws {as : Attrs} {attrs : List Attribute} (h : Parsed as attrs) (n : String) :
    throwsErr attrs = some n ↔ FirstIs as "Throws" n := by
  rw [throwsErr, h.first (w := fun v a => ∃ q, a = .ident "Throws" q v)]
  · simp only [FirstIs]
    constructor
    · rintro ⟨before, a, after, he, ⟨q, rfl⟩, hb⟩
      exact ⟨before, q, after, he, fun q w hm => hb _ hm w ⟨q, rfl⟩⟩
    · rintro ⟨before, q, after, he, hb⟩
      exact ⟨before, _, after, he, ⟨q, rfl⟩, by rintro b hm u ⟨q, rfl⟩; exact hb _ _ hm⟩
  · intro x a hs v
    cases x with
    | custom o => cases o <;> simp only [spell] at hs <;> grind
    | _ => simp only [spell] at hs <;> grind

theorem Parsed.noThrows {as : Attrs} {attrs : List Attribute} (h : Parsed as attrs) :
    throwsErr attrs = Option.none ↔ NoKey as "Throws" := by
  rw [throwsErr, h.none (w := fun v a => ∃ q, a = .ident "Throws" q v)]
  · simp only [NoKey]
    constructor
    · intro hn q w hm
      exact hn _ hm w ⟨q, rfl⟩
    · rintro hn a hm u ⟨q, rfl⟩
      exact hn _ _ hm
  · intro x a hs v
    cases x with
    | custom o => cases o <;> simp only [spell] at hs <;> grind
    | _ => simp only [spell] at hs <;> grind

theorem Parsed.ctor {as : Attrs} {attrs : List Attribute} (h : Parsed as attrs) (n : String) :
    ctorName attrs = some n ↔ FirstIs as "Name" n := by
  rw [ctorName, h.first (w := fun v a => ∃ q, a = .ident "Name" q v)]
  · simp only [FirstIs]
    constructor
    · rintro ⟨before, a, after, he, ⟨q, rfl⟩, hb⟩
      exact ⟨before, q, after, he, fun q w hm => hb _ hm w ⟨q, rfl⟩⟩
    · rintro ⟨before, q, after, he, hb⟩
      exact ⟨before, _, after, he, ⟨q, rfl⟩, by rintro b hm u ⟨q, rfl⟩; exact hb _ _ hm⟩
  · intro x a hs v
    cases x with
    | custom o => cases o <;> simp only [spell] at hs <;> grind
    | _ => simp only [spell] at hs <;> grind

theorem Parsed.noCtor {as : Attrs} {attrs : List Attribute} (h : Parsed as attrs) :
    ctorName attrs = Option.none ↔ NoKey as "Name" := by
  rw [ctorName, h.none (w := fun v a => ∃ q, a = .ident "Name" q v)]
  · simp only [NoKey]
    constructor
    · intro hn q w hm
      exact hn _ hm w ⟨q, rfl⟩
    · rintro hn a hm u ⟨q, rfl⟩
      exact hn _ _ hm
  · intro x a hs v
    cases x with
    | custom o => cases o <;> simp only [spell] at hs <;> grind
    | _ => simp only [spell] at hs <;> grind

theorem Parsed.traits {as : Attrs} {attrs : List Attribute} (h : Parsed as attrs)
    (l : List String) : traitNames attrs = l ↔ TraitList as l := by
  have hg : ∀ x a, spell x a → ∀ v, traitsOf x = some v ↔ a = .identList "Traits" v := by
    intro x a hs v
    cases x with
    | custom o => cases o <;> simp only [spell] at hs <;> grind [traitsOf]
    | _ => simp only [spell] at hs <;> grind [traitsOf]
  have h1 := h.first (w := fun v a => a = .identList "Traits" v) hg
  have h2 := h.none (w := fun v a => a = .identList "Traits" v) hg
  simp only [traitNames, TraitList]
  cases hf : attrs.findSome? traitsOf with
  | some ns =>
    obtain ⟨before, a, after, he, rfl, hb⟩ := (h1 ns).1 hf
    constructor
    · rintro rfl
      exact .inl ⟨before, after, he, fun k hm => hb _ hm k rfl⟩
    · rintro (⟨before', after', he', hb'⟩ | ⟨hn, -⟩)
      · have := (h1 l).2 ⟨before', _, after', he', rfl, by rintro b hm u rfl; exact hb' u hm⟩
        rw [hf] at this
        simpa using this
      · exact absurd (by simp [he]) (hn ns)
  | none =>
    have h3 := h2.1 hf
    constructor
    · rintro rfl
      exact .inr ⟨fun k hm => h3 _ hm k rfl, rfl⟩
    · rintro (⟨before', after', he', hb'⟩ | ⟨-, hl⟩)
      · exact absurd rfl (h3 _ (by simp [he']) l)
      · exact hl.symm

/-- Reading a list with the attributes allowed by `p`. -/
theorem optAttributes_ok {valid : Attribute → Bool} {p : Attr → Prop}
    (hp : ∀ a, p a ↔ ∃ x, spell x a ∧ valid x = true) {as : Attrs} {attrs : List Attribute} :
    optAttributes (parseAttributes valid) as = .ok attrs ↔ Allowed p as ∧ Parsed as attrs := by
  cases as with
  | none =>
    simp only [optAttributes, ok_ok]
    constructor
    · rintro rfl
      exact ⟨⟨by simp [listed], by simp [listed]⟩, ⟨.nil⟩⟩
    · rintro ⟨-, ⟨h⟩⟩
      cases h
      rfl
  | some l =>
    simp only [optAttributes, parseAttributes_ok]
    constructor
    · rintro ⟨h1, h2, h3⟩
      refine ⟨⟨h1, fun a ha => ?_⟩, ⟨h2⟩⟩
      obtain ⟨x, hx, hs⟩ := h2.mem_left ha
      exact (hp a).2 ⟨x, hs, h3 x hx⟩
    · rintro ⟨⟨h1, h2⟩, ⟨h3⟩⟩
      refine ⟨h1, h3, fun x hx => ?_⟩
      obtain ⟨a, ha, hs⟩ := h3.mem_right hx
      obtain ⟨y, hy, hv⟩ := (hp a).1 (h2 a ha)
      exact spell_fun hs hy ▸ hv

/-- There is a result whenever the attributes are allowed. -/
theorem Allowed.parsed {p : Attr → Prop} {as : Attrs} (h : Allowed p as)
    (hp : ∀ a, p a → ∃ x, spell x a) : ∃ attrs, Parsed as attrs := by
  obtain ⟨attrs, h1⟩ := Each.exists (R := fun a x => spell x a) (as := listed as)
    fun a ha => hp a (h.known a ha)
  exact ⟨attrs, ⟨h1⟩⟩

end Verif.Udl.File
