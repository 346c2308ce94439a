import Verif.Udl.CollectAttrs
/-
Lemmas about the attributes of each kind of definition.
-/
namespace Verif.Udl.File
open Verif.Meta Verif.Udl

theorem exists_spell {q : Attribute → Prop} {a : Attr} :
    (∃ x, spell x a ∧ q x) ↔
      (a = .noArgs "ByRef" ∧ q .byRef) ∨ (a = .noArgs "ByMutRef" ∧ q .byMutRef) ∨
      (a = .noArgs "Enum" ∧ q .enum) ∨ (a = .noArgs "Error" ∧ q .error) ∨
      (a = .noArgs "Custom" ∧ q (.custom none)) ∨ (a = .noArgs "Trait" ∧ q .trait) ∨
      (a = .noArgs "WithForeign" ∧ q .withForeign) ∨ (a = .noArgs "Async" ∧ q .async) ∨
      (a = .noArgs "NonExhaustive" ∧ q .nonExhaustive) ∨ (a = .noArgs "Remote" ∧ q .remote) ∨
      (∃ s n, a = .ident "Name" s n ∧ q (.name n)) ∨
      (∃ s n, a = .ident "Throws" s n ∧ q (.throws n)) ∨
      (a = .ident "Self" false "ByArc" ∧ q .selfByArc) ∨
      (∃ s n, a = .ident "External" s n ∧ q (.external n)) ∨
      (∃ s n, a = .ident "Custom" s n ∧ q (.custom (some n))) ∨
      (∃ l, a = .identList "Traits" l ∧ q (.traits l)) := by
  constructor
  · rintro ⟨x, hs, hq⟩
    cases x with
    | custom o => cases o <;> simp only [spell] at hs <;> grind
    | _ => simp only [spell] at hs <;> grind
  · rintro (⟨rfl, h⟩ | ⟨rfl, h⟩ | ⟨rfl, h⟩ | ⟨rfl, h⟩ | ⟨rfl, h⟩ | ⟨rfl, h⟩ | ⟨rfl, h⟩ | ⟨rfl, h⟩ |
      ⟨rfl, h⟩ | ⟨rfl, h⟩ | ⟨s, n, rfl, h⟩ | ⟨s, n, rfl, h⟩ | ⟨rfl, h⟩ | ⟨s, n, rfl, h⟩ |
      ⟨s, n, rfl, h⟩ | ⟨l, rfl, h⟩) <;> exact ⟨_, by simp [spell], h⟩

theorem functionAttributes_ok {as : Attrs} {attrs : List Attribute} :
    optAttributes functionAttributes as = .ok attrs ↔ Allowed onFunction as ∧ Parsed as attrs := by
  refine optAttributes_ok fun a => ?_
  rw [exists_spell]; simp [onFunction]

theorem constructorAttributes_ok {as : Attrs} {attrs : List Attribute} :
    optAttributes constructorAttributes as = .ok attrs ↔
      Allowed onConstructor as ∧ Parsed as attrs := by
  refine optAttributes_ok fun a => ?_
  rw [exists_spell]; simp [onConstructor, onFunction]; grind

theorem methodAttributes_ok {as : Attrs} {attrs : List Attribute} :
    optAttributes methodAttributes as = .ok attrs ↔ Allowed onMethod as ∧ Parsed as attrs := by
  refine optAttributes_ok fun a => ?_
  rw [exists_spell]; simp [onMethod, onFunction]; grind

theorem dictionaryAttributes_ok {as : Attrs} {attrs : List Attribute} :
    optAttributes dictionaryAttributes as = .ok attrs ↔
      Allowed onDictionary as ∧ Parsed as attrs := by
  refine optAttributes_ok fun a => ?_
  rw [exists_spell]; simp [onDictionary]

theorem enumAttributes_ok {as : Attrs} {attrs : List Attribute} :
    optAttributes enumAttributes as = .ok attrs ↔ Allowed onEnum as ∧ Parsed as attrs := by
  refine optAttributes_ok fun a => ?_
  rw [exists_spell]; simp [onEnum, onDictionary]; grind

theorem Parsed.isEnum {as : Attrs} {attrs : List Attribute} (h : Parsed as attrs) :
    attrs.contains .enum = true ↔ Marked as "Enum" := h.marked fun _ => by simp [spell]
theorem Parsed.isError {as : Attrs} {attrs : List Attribute} (h : Parsed as attrs) :
    attrs.contains .error = true ↔ Marked as "Error" := h.marked fun _ => by simp [spell]
theorem Parsed.isRemote {as : Attrs} {attrs : List Attribute} (h : Parsed as attrs) :
    attrs.contains .remote = true ↔ Marked as "Remote" := h.marked fun _ => by simp [spell]
theorem Parsed.isTrait {as : Attrs} {attrs : List Attribute} (h : Parsed as attrs) :
    attrs.contains .trait = true ↔ Marked as "Trait" := h.marked fun _ => by simp [spell]
theorem Parsed.isForeign {as : Attrs} {attrs : List Attribute} (h : Parsed as attrs) :
    attrs.contains .withForeign = true ↔ Marked as "WithForeign" :=
  h.marked fun _ => by simp [spell]
theorem Parsed.isAsync {as : Attrs} {attrs : List Attribute} (h : Parsed as attrs) :
    attrs.contains .async = true ↔ Marked as "Async" := h.marked fun _ => by simp [spell]
theorem Parsed.isNonExhaustive {as : Attrs} {attrs : List Attribute} (h : Parsed as attrs) :
    attrs.contains .nonExhaustive = true ↔ Marked as "NonExhaustive" :=
  h.marked fun _ => by simp [spell]
theorem Parsed.isByRef {as : Attrs} {attrs : List Attribute} (h : Parsed as attrs) :
    attrs.contains .byRef = true ↔ Marked as "ByRef" := h.marked fun _ => by simp [spell]
theorem Parsed.isByMutRef {as : Attrs} {attrs : List Attribute} (h : Parsed as attrs) :
    attrs.contains .byMutRef = true ↔ Marked as "ByMutRef" := h.marked fun _ => by simp [spell]

theorem optAttributes_bind {f : List Attr → Res (List Attribute)}
    {k : List Attribute → Res (List Attribute)} {as : Attrs} (hk : k [] = .ok []) :
    optAttributes (fun l => f l >>= k) as = optAttributes f as >>= k := by
  cases as with
  | none => simp [optAttributes, bind, Except.bind, hk]
  | some l => simp [optAttributes]

theorem argumentAttributes_ok {as : Attrs} {attrs : List Attribute} :
    optAttributes argumentAttributes as = .ok attrs ↔
      Allowed onArgument as ∧ ¬(Marked as "ByRef" ∧ Marked as "ByMutRef") ∧ Parsed as attrs := by
  have h0 : optAttributes argumentAttributes as =
      optAttributes (parseAttributes fun
        | .byRef => true
        | .byMutRef => true
        | _ => false) as >>= (fun attrs => do
      check !(attrs.contains .byRef && attrs.contains .byMutRef)
      .ok attrs) := by
    refine optAttributes_bind ?_
    rfl
  rw [h0, bind_ok]
  simp only [bind_ok, check_ok, ok_ok]
  have h1 : ∀ attrs, optAttributes (parseAttributes fun
        | .byRef => true
        | .byMutRef => true
        | _ => false) as = .ok attrs ↔ Allowed onArgument as ∧ Parsed as attrs := by
    intro attrs
    refine optAttributes_ok fun a => ?_
    rw [exists_spell]; simp [onArgument]
  simp only [h1]
  constructor
  · rintro ⟨a, ⟨ha, hp⟩, -, h2, rfl⟩
    refine ⟨ha, ?_, hp⟩
    rw [← hp.isByRef, ← hp.isByMutRef]
    grind
  · rintro ⟨ha, h2, hp⟩
    refine ⟨attrs, ⟨ha, hp⟩, (), ?_, rfl⟩
    rw [← hp.isByRef, ← hp.isByMutRef] at h2
    grind

theorem interfaceAttributes_ok {as : Attrs} {attrs : List Attribute} :
    optAttributes interfaceAttributes as = .ok attrs ↔ InterfaceAttrs as ∧ Parsed as attrs := by
  have h0 : optAttributes interfaceAttributes as =
      optAttributes (parseAttributes fun
        | .enum => true
        | .error => true
        | .trait => true
        | .withForeign => true
        | .traits _ => true
        | .remote => true
        | _ => false) as >>= (fun attrs => do
      check !(attrs.contains .enum && !(attrs.length == 1 || attrs.any traitsOrRemote))
      check !(attrs.contains .remote && attrs.contains .withForeign)
      .ok attrs) := by
    refine optAttributes_bind ?_
    rfl
  rw [h0, bind_ok]
  simp only [bind_ok, check_ok, ok_ok]
  have h1 : ∀ attrs, optAttributes (parseAttributes fun
        | .enum => true
        | .error => true
        | .trait => true
        | .withForeign => true
        | .traits _ => true
        | .remote => true
        | _ => false) as = .ok attrs ↔ Allowed onInterface as ∧ Parsed as attrs := by
    intro attrs
    refine optAttributes_ok fun a => ?_
    rw [exists_spell]; simp [onInterface, onDictionary]
  simp only [h1]
  have h3 : ∀ {attrs : List Attribute}, Parsed as attrs →
      ((!(attrs.contains .enum && !(attrs.length == 1 || attrs.any traitsOrRemote))) = true ↔
        (Marked as "Enum" → listed as = [.noArgs "Enum"] ∨ ∃ a ∈ listed as, onDictionary a)) := by
    intro attrs hp
    have hany : attrs.any traitsOrRemote = true ↔ ∃ a ∈ listed as, onDictionary a := by
      rw [List.any_eq_true]
      constructor
      · rintro ⟨x, hx, ht⟩
        obtain ⟨a, ha, hs⟩ := hp.each.mem_right hx
        refine ⟨a, ha, ?_⟩
        cases x <;> simp_all [traitsOrRemote, spell, onDictionary]
      · rintro ⟨a, ha, hd⟩
        obtain ⟨x, hx, hs⟩ := hp.each.mem_left ha
        refine ⟨x, hx, ?_⟩
        rcases hd with rfl | ⟨l, rfl⟩
        · have : x = .remote := spell_fun hs (by simp [spell])
          simp [this, traitsOrRemote]
        · have : x = .traits l := spell_fun hs (by simp [spell])
          simp [this, traitsOrRemote]
    rw [← hp.isEnum, ← hany]
    have hlen := hp.each.length
    have hone : attrs.contains .enum = true → (attrs.length = 1 ↔ listed as = [.noArgs "Enum"]) := by
      intro hc
      have hm := hp.isEnum.1 hc
      simp only [Marked] at hm
      constructor
      · intro h1
        match hl : listed as with
        | [] => simp [hl] at hm
        | [a] => simp [hl] at hm; simp [hm]
        | a :: b :: l => simp [hl] at hlen; omega
      · intro h1
        simp [h1] at hlen; omega
    cases hc : attrs.contains .enum
    · simp
    · have := hone hc
      simp [this]
  constructor
  · rintro ⟨a, ⟨ha, hp⟩, -, h2, -, h4, rfl⟩
    refine ⟨⟨ha, (h3 hp).1 h2, ?_⟩, hp⟩
    rw [← hp.isRemote, ← hp.isForeign]
    grind
  · rintro ⟨⟨ha, h2, h4⟩, hp⟩
    refine ⟨attrs, ⟨ha, hp⟩, (), (h3 hp).2 h2, (), ?_, rfl⟩
    rw [← hp.isRemote, ← hp.isForeign] at h4
    grind

theorem typedefAttributes_ok {as : Attrs} {attrs : List Attribute} :
    optAttributes typedefAttributes as = .ok attrs ↔ TypedefAttrs as ∧ Parsed as attrs := by
  have h0 : optAttributes typedefAttributes as =
      optAttributes (parseAttributes fun
        | .external _ => true
        | .custom _ => true
        | _ => false) as >>= (fun attrs => do
      check !(attrs.length > 1)
      .ok attrs) := by
    refine optAttributes_bind ?_
    rfl
  rw [h0, bind_ok]
  simp only [bind_ok, check_ok, ok_ok]
  have h1 : ∀ attrs, optAttributes (parseAttributes fun
        | .external _ => true
        | .custom _ => true
        | _ => false) as = .ok attrs ↔ Allowed onTypedef as ∧ Parsed as attrs := by
    intro attrs
    refine optAttributes_ok fun a => ?_
    rw [exists_spell]; simp [onTypedef]; grind
  simp only [h1]
  constructor
  · rintro ⟨a, ⟨ha, hp⟩, -, h2, rfl⟩
    refine ⟨⟨ha, ?_⟩, hp⟩
    rw [hp.each.length]
    simpa using h2
  · rintro ⟨⟨ha, h2⟩, hp⟩
    refine ⟨attrs, ⟨ha, hp⟩, (), ?_, rfl⟩
    rw [hp.each.length] at h2
    simpa using h2

theorem InterfaceAttrs.parsed {as : Attrs} (h : InterfaceAttrs as) : ∃ attrs, Parsed as attrs :=
  h.allowed.parsed fun a ha => by
    have : ∃ x, spell x a ∧ True := by
      rw [exists_spell]; simp only [onInterface, onDictionary] at ha; grind
    obtain ⟨x, hx, -⟩ := this
    exact ⟨x, hx⟩

theorem TypedefAttrs.parsed {as : Attrs} (h : TypedefAttrs as) : ∃ attrs, Parsed as attrs :=
  h.allowed.parsed fun a ha => by
    have : ∃ x, spell x a ∧ True := by
      rw [exists_spell]; simp only [onTypedef] at ha; grind
    obtain ⟨x, hx, -⟩ := this
    exact ⟨x, hx⟩

theorem parsed_of_onEnum {as : Attrs} (h : Allowed onEnum as) : ∃ attrs, Parsed as attrs :=
  h.parsed fun a ha => by
    have : ∃ x, spell x a ∧ True := by
      rw [exists_spell]; simp only [onEnum, onDictionary] at ha; grind
    obtain ⟨x, hx, -⟩ := this
    exact ⟨x, hx⟩

theorem parsed_of_onDictionary {as : Attrs} (h : Allowed onDictionary as) :
    ∃ attrs, Parsed as attrs :=
  parsed_of_onEnum ⟨h.once, fun a ha => .inr (.inr (.inr (h.known a ha)))⟩

theorem parsed_of_onArgument {as : Attrs} (h : Allowed onArgument as) : ∃ attrs, Parsed as attrs :=
  h.parsed fun a ha => by
    have : ∃ x, spell x a ∧ True := by
      rw [exists_spell]; simp only [onArgument] at ha; grind
    obtain ⟨x, hx, -⟩ := this
    exact ⟨x, hx⟩

theorem parsed_of_onConstructor {as : Attrs} (h : Allowed onConstructor as) :
    ∃ attrs, Parsed as attrs :=
  h.parsed fun a ha => by
    have : ∃ x, spell x a ∧ True := by
      rw [exists_spell]; simp only [onConstructor, onFunction] at ha; grind
    obtain ⟨x, hx, -⟩ := this
    exact ⟨x, hx⟩

theorem parsed_of_onMethod {as : Attrs} (h : Allowed onMethod as) : ∃ attrs, Parsed as attrs :=
  h.parsed fun a ha => by
    have : ∃ x, spell x a ∧ True := by
      rw [exists_spell]; simp only [onMethod, onFunction] at ha; grind
    obtain ⟨x, hx, -⟩ := this
    exact ⟨x, hx⟩

theorem parsed_of_onFunction {as : Attrs} (h : Allowed onFunction as) : ∃ attrs, Parsed as attrs :=
  parsed_of_onMethod ⟨h.once, fun a ha => .inl (h.known a ha)⟩

/-! Typedefs. -/

theorem Parsed.custom {as : Attrs} {attrs : List Attribute} (h : Parsed as attrs) :
    isCustom attrs = true ↔ CustomLike as := by
  simp only [isCustom, List.any_eq_true, CustomLike, Marked]
  constructor
  · rintro ⟨x, hx, hc⟩
    obtain ⟨a, ha, hs⟩ := h.each.mem_right hx
    cases x with
    | custom o =>
      cases o with
      | none => simp only [spell] at hs; subst hs; exact .inl ha
      | some c =>
        simp only [spell] at hs
        obtain ⟨q, rfl⟩ := hs
        exact .inr ⟨q, c, ha⟩
    | _ => simp at hc
  · rintro (hm | ⟨q, c, hm⟩)
    · obtain ⟨x, hx, hs⟩ := h.each.mem_left hm
      have : x = .custom Option.none := spell_fun hs (by simp [spell])
      exact ⟨x, hx, by simp [this]⟩
    · obtain ⟨x, hx, hs⟩ := h.each.mem_left hm
      have : x = .custom (some c) := spell_fun hs (by simp [spell])
      exact ⟨x, hx, by simp [this]⟩

theorem Parsed.crate {crate : String} {as : Attrs} {attrs : List Attribute} (h : Parsed as attrs)
    (ht : TypedefAttrs as) (m : String) :
    typedefPath crate attrs = m ↔ CrateIs crate as m := by
  obtain ⟨he⟩ := h
  obtain ⟨ha, h1⟩ := ht
  have hk := ha.known
  simp only [CrateIs, NoKey]
  match hl : listed as, he, h1 with
  | [], he, _ =>
    cases he
    simp [typedefPath, typedefCrate]
    exact eq_comm
  | [a], he, _ =>
    cases he with
    | @cons _ x _ _ hs hn =>
      cases hn
      have hka := hk a (by simp [hl])
      rcases hka with rfl | ⟨q, c, rfl⟩ | ⟨q, c, rfl⟩
      · have : x = .custom Option.none := spell_fun hs (by simp [spell])
        simp [this, typedefPath, typedefCrate]
        exact eq_comm
      · have : x = .custom (some c) := spell_fun hs (by simp [spell])
        simp [this, typedefPath, typedefCrate]
        grind
      · have : x = .external c := spell_fun hs (by simp [spell])
        simp [this, typedefPath, typedefCrate]
        grind
  | _ :: _ :: _, _, h1 => simp at h1

theorem objectImpl_ok {as : Attrs} {attrs : List Attribute} (h : Parsed as attrs) {imp : Impl} :
    objectImpl attrs = .ok imp ↔ IsImpl as imp := by
  unfold objectImpl
  constructor
  · intro hi
    split at hi <;> simp [bail] at hi <;> subst hi
    · rename_i h1 h2
      exact .both (h.isTrait.1 h1) (h.isForeign.1 h2)
    · rename_i h1 h2
      refine .rustOnly (h.isTrait.1 h1) ?_
      rw [← h.isForeign, h2]; nofun
    · rename_i h1 h2
      refine .struct ?_ ?_
      · rw [← h.isTrait, h1]; nofun
      · rw [← h.isForeign, h2]; nofun
  · intro hi
    have e1 := h.isTrait
    have e2 := h.isForeign
    generalize attrs.contains .trait = b1 at e1 ⊢
    generalize attrs.contains .withForeign = b2 at e2 ⊢
    cases hi <;> cases b1 <;> cases b2 <;> simp_all

theorem passByOf_iff {as : Attrs} {attrs : List Attribute} (h : Parsed as attrs)
    (hn : ¬(Marked as "ByRef" ∧ Marked as "ByMutRef")) {p : PassBy} :
    passByOf attrs = p ↔ PassedBy as p := by
  unfold passByOf
  have e1 := h.isByMutRef
  have e2 := h.isByRef
  generalize attrs.contains .byMutRef = b1 at e1 ⊢
  generalize attrs.contains .byRef = b2 at e2 ⊢
  constructor
  · rintro rfl
    cases b1 <;> cases b2 <;> simp at e1 e2 <;> simp
    · exact .value e2 e1
    · exact .ref e2 e1
    · exact .mutRef e1 e2
    · exact absurd ⟨e2, e1⟩ hn
  · intro hi
    cases hi <;> cases b1 <;> cases b2 <;> simp_all

end Verif.Udl.File
