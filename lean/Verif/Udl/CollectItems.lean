import Verif.Udl.CollectTypes
/-
Lemmas about the second pass, which makes the items.
-/
namespace Verif.Udl.File
open Verif.Meta Verif.Udl

theorem convertDefault_plain {l : Lit} {t : MTy} {v : ULit} (h1 : ∀ m n, t ≠ .enum m n)
    (h2 : ∀ u, t ≠ .optional u) :
    convertDefault l t = .ok v ↔ ∃ x, convert l t = some x ∧ v = .plain x := by
  have : convertDefault l t = (do
      let v ← need (convert l t)
      .ok (.plain v)) := by
    rw [convertDefault.eq_def]
    split
    · exact absurd rfl (h1 _ _)
    · exact absurd rfl (h2 _)
    · rfl
  rw [this, bind_ok]
  simp only [need_ok, ok_ok]
  constructor
  · rintro ⟨a, h, rfl⟩; exact ⟨a, h, rfl⟩
  · rintro ⟨a, h, rfl⟩; exact ⟨a, h, rfl⟩

theorem convertDefault_ok : ∀ {t : MTy} {l : Lit} {v : ULit},
    convertDefault l t = .ok v ↔ DefaultIs l t v := by
  intro t
  have plain : ∀ {t : MTy} {l : Lit} {v : ULit}, (∀ m n, t ≠ .enum m n) → (∀ u, t ≠ .optional u) →
      (convertDefault l t = .ok v ↔ DefaultIs l t v) := by
    intro t l v h1 h2
    rw [convertDefault_plain h1 h2]
    constructor
    · rintro ⟨x, hx, rfl⟩; exact .plain h1 h2 hx
    · intro h
      cases h with
      | variant => exact absurd rfl (h1 _ _)
      | null => exact absurd rfl (h2 _)
      | some => exact absurd rfl (h2 _)
      | plain _ _ h => exact ⟨_, h, rfl⟩
  induction t with
  | enum m n =>
    intro l v
    constructor
    · intro h
      cases l <;> simp [convertDefault, bail] at h
      subst h
      exact .variant
    · intro h
      cases h with
      | variant => rfl
      | plain h1 => exact absurd rfl (h1 _ _)
  | optional t ih =>
    intro l v
    constructor
    · intro h
      by_cases hl : l = .null
      · subst hl
        simp [convertDefault] at h
        subst h
        exact .null
      · have : convertDefault l (.optional t) = (do
            let v ← convertDefault l t
            .ok (.some v)) := by
          cases l <;> first | rfl | exact absurd rfl hl
        rw [this, bind_ok] at h
        obtain ⟨a, ha, h⟩ := h
        simp only [ok_ok] at h
        subst h
        exact .some hl (ih.1 ha)
    · intro h
      cases h with
      | null => rfl
      | some hl hd =>
        have : convertDefault l (.optional t) = (do
            let v ← convertDefault l t
            .ok (.some v)) := by
          cases l <;> first | rfl | exact absurd rfl hl
        rw [this, bind_ok]
        exact ⟨_, ih.2 hd, rfl⟩
      | plain _ h2 => exact absurd rfl (h2 _)
  | _ => intro l v; exact plain (by nofun) (by nofun)

theorem optDefault_ok {l : Option Lit} {t : MTy} {v : Option ULit} :
    optDefault l t = .ok v ↔ OptDefaultIs l t v := by
  cases l with
  | none =>
    simp only [optDefault, ok_ok]
    constructor
    · rintro rfl; exact .none
    · rintro ⟨⟩; rfl
  | some l =>
    simp only [optDefault, bind_ok, ok_ok, convertDefault_ok]
    constructor
    · rintro ⟨a, h, rfl⟩; exact .some h
    · intro h
      cases h with
      | some h => exact ⟨_, h, rfl⟩

theorem argField_ok {crate : String} {types : Types} {file : List Def}
    (H : Right crate types file) {a : WArg} {f : UField} :
    argField types a = .ok f ↔ VariantFieldIs crate file a f := by
  cases a with
  | variadic => simp only [argField, bail_ok, false_iff]; nofun
  | single as opt ta w n d =>
    simp only [argField, bind_ok, resolveAttributed_ok, check_ok, ok_ok, resolve_ok H]
    constructor
    · rintro ⟨t, ⟨rfl, hr⟩, -, hd, -, ha, rfl⟩
      simp at hd ha
      subst hd ha
      exact .mk hr
    · intro h
      cases h with
      | mk h => exact ⟨_, ⟨rfl, h⟩, (), rfl, (), rfl, rfl⟩

theorem PassedBy.notBoth {as : Attrs} {p : PassBy} (h : PassedBy as p) :
    ¬(Marked as "ByRef" ∧ Marked as "ByMutRef") := by
  cases h with
  | value h1 _ => exact fun h => h1 h.1
  | ref _ h2 => exact fun h => h2 h.2
  | mutRef _ h2 => exact fun h => h2 h.1

theorem argParam_ok {crate : String} {types : Types} {file : List Def}
    (H : Right crate types file) {a : WArg} {f : UArg} :
    argParam types a = .ok f ↔ ArgIs crate file a f := by
  cases a with
  | variadic => simp only [argParam, bail_ok, false_iff]; nofun
  | single as opt ta w n d =>
    simp only [argParam, bind_ok, resolveAttributed_ok, ok_ok, resolve_ok H, optDefault_ok,
      argumentAttributes_ok]
    constructor
    · rintro ⟨t, ⟨rfl, hr⟩, v, hd, attrs, ⟨ha, hb, hp⟩, rfl⟩
      exact .mk hr hd ha ((passByOf_iff hp hb).1 rfl)
    · intro h
      cases h with
      | mk hr hd ha hb =>
        obtain ⟨attrs, hp⟩ := parsed_of_onArgument ha
        exact ⟨_, ⟨rfl, hr⟩, _, hd, attrs, ⟨ha, hb.notBoth, hp⟩, by
          rw [(passByOf_iff hp hb.notBoth).2 hb]⟩

theorem resolveReturn_ok {crate : String} {types : Types} {file : List Def}
    (H : Right crate types file) {w : WRet} {t : Option MTy} :
    resolveReturn types w = .ok t ↔ ReturnIs crate file w t := by
  have other : ∀ {w : WTy}, (∀ q, w ≠ .identifier "void" q) →
      ((do
        let t ← resolve types w
        .ok (some t)) = (.ok t : Res (Option MTy)) ↔ ReturnIs crate file (.ty w) t) := by
    intro w hw
    simp only [bind_ok, ok_ok, resolve_ok H]
    constructor
    · rintro ⟨t, h, rfl⟩; exact .ty hw h
    · intro h
      cases h with
      | void => exact absurd rfl (hw _)
      | ty _ h => exact ⟨_, h, rfl⟩
  cases w with
  | undefined =>
    simp only [resolveReturn, ok_ok]
    constructor
    · rintro rfl; exact .undefined
    · rintro ⟨⟩; rfl
  | ty w =>
    cases w with
    | identifier n q =>
      simp only [resolveReturn]
      split
      · rename_i hn
        subst hn
        simp only [ok_ok]
        constructor
        · rintro rfl; exact .void
        · intro h
          cases h with
          | void => rfl
          | ty h _ => exact absurd rfl (h _)
      · rename_i hn
        exact other (by rintro q ⟨⟩; exact hn rfl)
    | _ => exact other (by nofun)

theorem throwsType_ok {crate : String} {types : Types} {file : List Def}
    (H : Right crate types file) {as : Attrs} {attrs : List Attribute} (hp : Parsed as attrs)
    {t : Option MTy} : throwsType types attrs = .ok t ↔ ThrowsIs crate file as t := by
  unfold throwsType
  cases h : throwsErr attrs with
  | none =>
    have hn := hp.noThrows.1 h
    simp only [ok_ok]
    constructor
    · rintro rfl; exact .none hn
    · intro ht
      cases ht with
      | none => rfl
      | some hf =>
        have := (hp.throws _).2 hf
        rw [h] at this; simp at this
  | some n =>
    have hn := (hp.throws n).1 h
    simp only [bind_ok, need_ok, ok_ok, H n _]
    constructor
    · rintro ⟨t, ht, rfl⟩; exact .some hn ht
    · intro ht
      cases ht with
      | none hk =>
        have := hp.noThrows.2 hk
        rw [h] at this; simp at this
      | some hf hk =>
        have := (hp.throws _).2 hf
        rw [h] at this
        simp at this
        subst this
        exact ⟨_, hk, rfl⟩

theorem ctorThrowsType_ok' {types : Types} {attrs : List Attribute} {t : Option MTy} :
    ctorThrowsType types attrs = .ok t ↔ throwsType types attrs = .ok t := by
  unfold ctorThrowsType throwsType
  cases throwsErr attrs with
  | none => simp
  | some n =>
    cases h : types.get n <;> simp [need, bail, bind, Except.bind, h]

theorem rejectAsyncByMutRef_ok {b : Bool} {inputs : List UArg} {u : Unit} :
    rejectAsyncByMutRef b inputs = .ok u ↔ (b = true → ∀ a ∈ inputs, a.passBy ≠ .mutRef) := by
  simp only [rejectAsyncByMutRef, check_ok]
  cases b <;> simp

theorem args_ok {crate : String} {types : Types} {file : List Def}
    (H : Right crate types file) {as : List WArg} {bs : List UArg} :
    mapR (argParam types) as = .ok bs ↔ Each (ArgIs crate file) as bs := by
  rw [mapR_ok]
  exact Each.iff fun a _ b => argParam_ok H

theorem bool_eq_of_iff {b : Bool} {p : Prop} {c : Bool} (h : b = true ↔ p) (h' : c = true ↔ p) :
    b = c := by
  cases b <;> cases c <;> simp_all

theorem convertFn_ok {crate : String} {types : Types} {file : List Def}
    (H : Right crate types file) {m : WNsMember} {f : UFn} :
    convertFn crate types m = .ok f ↔ FnIs crate file m f := by
  cases m with
  | other => simp only [convertFn, bail_ok, false_iff]; nofun
  | op o =>
    simp only [convertFn, bind_ok, need_ok, ok_ok, resolveReturn_ok H, functionAttributes_ok,
      args_ok H, rejectAsyncByMutRef_ok]
    constructor
    · rintro ⟨ret, hr, name, hn, attrs, ⟨ha, hp⟩, throws, ht, inputs, hi, -, hm, rfl⟩
      exact .mk ha hn ⟨rfl, hp.isAsync, hi, (throwsType_ok H hp).1 ht, rfl, hm⟩ hr rfl
    · intro h
      cases h with
      | mk ha hn hc hr hb =>
        obtain ⟨attrs, hp⟩ := parsed_of_onFunction ha
        have hasync := bool_eq_of_iff hp.isAsync hc.async
        refine ⟨_, hr, _, hn, attrs, ⟨ha, hp⟩, _, (throwsType_ok H hp).2 hc.throws, _, hc.args, (),
          ?_, ?_⟩
        · rw [hasync]; exact hc.mutRef
        · rw [hasync, ← hc.inCrate, ← hc.doc, ← hb]

theorem ctorName_ok {as : Attrs} {attrs : List Attribute} (hp : Parsed as attrs) {s : String} :
    ctorNameOrNew attrs = s ↔ FirstIs as "Name" s ∨ (NoKey as "Name" ∧ s = "new") := by
  unfold ctorNameOrNew
  cases h : ctorName attrs with
  | none =>
    have hn := hp.noCtor.1 h
    constructor
    · rintro rfl; exact .inr ⟨hn, rfl⟩
    · rintro (hf | ⟨-, hs⟩)
      · have := (hp.ctor _).2 hf
        rw [h] at this; simp at this
      · exact hs.symm
  | some n =>
    have hn := (hp.ctor n).1 h
    constructor
    · rintro rfl; exact .inl hn
    · rintro (hf | ⟨hk, -⟩)
      · have := (hp.ctor _).2 hf
        rw [h] at this; simpa using this
      · have := hp.noCtor.2 hk
        rw [h] at this; simp at this

theorem convertCtor_ok {crate : String} {types : Types} {file : List Def}
    (H : Right crate types file) {c : WCtor} {f : UFn} :
    convertCtor crate types c = .ok f ↔ CtorIs crate file c f := by
  simp only [convertCtor, bind_ok, ok_ok, constructorAttributes_ok, ctorThrowsType_ok',
    args_ok H, rejectAsyncByMutRef_ok]
  constructor
  · rintro ⟨attrs, ⟨ha, hp⟩, throws, ht, inputs, hi, -, hm, rfl⟩
    exact ⟨ha, (ctorName_ok hp).1 rfl, ⟨rfl, hp.isAsync, hi, (throwsType_ok H hp).1 ht, rfl, hm⟩,
      rfl, rfl⟩
  · rintro ⟨ha, hn, hc, hr, hb⟩
    obtain ⟨attrs, hp⟩ := parsed_of_onConstructor ha
    have hasync := bool_eq_of_iff hp.isAsync hc.async
    refine ⟨attrs, ⟨ha, hp⟩, _, (throwsType_ok H hp).2 hc.throws, _, hc.args, (), ?_, ?_⟩
    · rw [hasync]; exact hc.mutRef
    · rw [(ctorName_ok hp).2 hn, hasync, ← hc.inCrate, ← hc.doc, ← hb, ← hr]

theorem convertMethod_ok {crate : String} {types : Types} {file : List Def}
    (H : Right crate types file) {o : WOp} {f : UFn} :
    convertMethod crate types o = .ok f ↔ MethodIs crate file o f := by
  simp only [convertMethod, bind_ok, need_ok, check_ok, ok_ok, resolveReturn_ok H,
    methodAttributes_ok, args_ok H, rejectAsyncByMutRef_ok]
  constructor
  · rintro ⟨-, hs, -, hmod, ret, hr, attrs, ⟨ha, hp⟩, throws, ht, name, hn, -, hnew, inputs, hi, -,
      hm, rfl⟩
    exact ⟨⟨by simpa using hs, by simpa using hmod⟩, ha, hn, by simpa using hnew,
      ⟨rfl, hp.isAsync, hi, (throwsType_ok H hp).1 ht, rfl, hm⟩, hr, hp.byArc⟩
  · rintro ⟨⟨hs, hmod⟩, ha, hn, hnew, hc, hr, hb⟩
    obtain ⟨attrs, hp⟩ := parsed_of_onMethod ha
    have hasync := bool_eq_of_iff hp.isAsync hc.async
    have harc := bool_eq_of_iff hp.byArc hb
    refine ⟨(), by simp [hs], (), by simp [hmod], _, hr, attrs, ⟨ha, hp⟩, _,
      (throwsType_ok H hp).2 hc.throws, _, hn, (), by simpa using hnew, _, hc.args, (), ?_, ?_⟩
    · rw [hasync]; exact hc.mutRef
    · rw [hasync, harc, ← hc.inCrate, ← hc.doc]

theorem variantName_ok {w : WRet} {n : String} : variantName w = .ok n ↔ VariantName w n := by
  constructor
  · intro h
    unfold variantName at h
    split at h <;> simp [bail] at h <;> subst h
    · exact .name
    · exact .error
  · intro h
    cases h <;> rfl

theorem variant_ok {crate : String} {types : Types} {file : List Def}
    (H : Right crate types file) {m : WMember} {v : UVariant} :
    (match m with
      | .op o => convertVariant types o
      | _ => bail) = .ok v ↔ VariantIs crate file m v := by
  cases m with
  | ctor c => simp only [bail_ok, false_iff]; nofun
  | other => simp only [bail_ok, false_iff]; nofun
  | op o =>
    simp only [convertVariant, bind_ok, check_ok, ok_ok, variantName_ok, mapR_ok]
    constructor
    · rintro ⟨-, hs, -, hm, -, hn, name, hv, fields, hf, rfl⟩
      exact .mk (by simpa using hs) (by simpa using hm) (by simpa using hn) hv
        ((Each.iff fun a _ b => argField_ok H).1 hf) rfl
    · intro h
      cases h with
      | mk hs hm hn hv hf hd =>
        exact ⟨(), by simp [hs], (), by simpa using hm, (), by simp [hn], _, hv, _,
          (Each.iff fun a _ b => argField_ok H).2 hf, by rw [← hd]⟩

theorem convertVariants_ok {crate : String} {types : Types} {file : List Def}
    (H : Right crate types file) {ms : List WMember} {vs : List UVariant} :
    convertVariants types ms = .ok vs ↔ Each (VariantIs crate file) ms vs := by
  rw [convertVariants, mapR_ok]
  exact Each.iff fun a _ b => variant_ok H

theorem convertField_ok {crate : String} {types : Types} {file : List Def}
    (H : Right crate types file) {w : WField} {f : UField} :
    convertField types w = .ok f ↔ FieldIs crate file w f := by
  simp only [convertField, bind_ok, check_ok, ok_ok, resolve_ok H, optDefault_ok]
  constructor
  · rintro ⟨-, ha, t, ht, d, hd, rfl⟩
    exact ⟨by simpa using ha, rfl, ht, hd, rfl⟩
  · rintro ⟨ha, hn, ht, hd, hdoc⟩
    exact ⟨(), by simp [ha], _, ht, _, hd, by rw [← hn, ← hdoc]⟩

theorem trait_ok {crate self : String} {t : MTy} {n : String} {i : UItem} :
    (do
      let t ← makeTrait crate t n
      .ok (.uniffiTrait self t) : Res UItem) = .ok i ↔ TraitIs crate self t n i := by
  simp only [bind_ok, ok_ok]
  constructor
  · rintro ⟨u, h, rfl⟩
    unfold makeTrait at h
    split at h
    · rename_i hn; subst hn; cases h; exact .debug
    · split at h
      · rename_i hn; subst hn; cases h; exact .display
      · split at h
        · rename_i hn; subst hn; cases h; exact .eq
        · split at h
          · rename_i hn; subst hn; cases h; exact .hash
          · split at h
            · rename_i hn; subst hn; cases h; exact .ord
            · simp [bail] at h
  · intro h
    cases h
    · exact ⟨_, rfl, rfl⟩
    · exact ⟨_, rfl, rfl⟩
    · exact ⟨_, rfl, rfl⟩
    · exact ⟨_, rfl, rfl⟩
    · exact ⟨_, rfl, rfl⟩

theorem makeTraits_ok {crate self : String} {t : MTy} {names : List String} {is : List UItem} :
    makeTraits crate self t names = .ok is ↔ Each (TraitIs crate self t) names is := by
  rw [makeTraits, mapR_ok]
  exact Each.iff fun a _ b => trait_ok

theorem convertMembers_ok {crate : String} {types : Types} {file : List Def}
    (H : Right crate types file) {self : String} {imp : Impl} {seen : List String}
    {ms : List WMember} {is : List UItem} :
    convertMembers crate types self imp seen ms = .ok is ↔
      Each (MemberIs crate file self imp) ms is ∧ (is.filterMap memberName).Nodup ∧
        ∀ n ∈ is.filterMap memberName, n ∉ seen := by
  induction ms generalizing seen is with
  | nil =>
    simp only [convertMembers, ok_ok]
    constructor
    · rintro rfl; exact ⟨.nil, by simp, by simp⟩
    · rintro ⟨⟨⟩, -⟩; rfl
  | cons m ms ih =>
    cases m with
    | other =>
      simp only [convertMembers, bail_ok, false_iff]
      rintro ⟨h, -⟩
      cases h with
      | cons h _ => cases h
    | ctor c =>
      simp only [convertMembers, bind_ok, check_ok, ok_ok, convertCtor_ok H, ih]
      constructor
      · rintro ⟨f, hf, -, hi, -, hs, rest, ⟨he, hn, hd⟩, rfl⟩
        refine ⟨.cons (.ctor hf (by simpa using hi)) he, ?_, ?_⟩
        · simp only [List.filterMap_cons, memberName, List.nodup_cons]
          exact ⟨fun hm => hd _ hm (by simp), hn⟩
        · simp only [List.filterMap_cons, memberName]
          intro n hm
          rcases List.mem_cons.1 hm with rfl | hm
          · simpa using hs
          · exact fun h => hd n hm (by simp [h])
      · rintro ⟨he, hn, hd⟩
        cases he with
        | cons hm he =>
          cases hm with
          | ctor hf hi =>
            simp only [List.filterMap_cons, memberName, List.nodup_cons] at hn hd
            refine ⟨_, hf, (), by simpa using hi, (), ?_, _, ⟨he, hn.2, ?_⟩, rfl⟩
            · simpa using hd _ (by simp)
            · intro n hm
              have := hd n (by simp [hm])
              simp only [List.mem_cons, not_or]
              exact ⟨by rintro rfl; exact hn.1 hm, this⟩
    | op o =>
      simp only [convertMembers, bind_ok, check_ok, ok_ok, convertMethod_ok H, ih]
      constructor
      · rintro ⟨f, hf, -, hs, rest, ⟨he, hn, hd⟩, rfl⟩
        refine ⟨.cons (.op hf) he, ?_, ?_⟩
        · simp only [List.filterMap_cons, memberName, List.nodup_cons]
          exact ⟨fun hm => hd _ hm (by simp), hn⟩
        · simp only [List.filterMap_cons, memberName]
          intro n hm
          rcases List.mem_cons.1 hm with rfl | hm
          · simpa using hs
          · exact fun h => hd n hm (by simp [h])
      · rintro ⟨he, hn, hd⟩
        cases he with
        | cons hm he =>
          cases hm with
          | op hf =>
            simp only [List.filterMap_cons, memberName, List.nodup_cons] at hn hd
            refine ⟨_, hf, (), ?_, _, ⟨he, hn.2, ?_⟩, rfl⟩
            · simpa using hd _ (by simp)
            · intro n hm
              have := hd n (by simp [hm])
              simp only [List.mem_cons, not_or]
              exact ⟨by rintro rfl; exact hn.1 hm, this⟩

theorem convertCallbacks_ok {crate : String} {types : Types} {file : List Def}
    (H : Right crate types file) {self : String} {i : Nat} {ms : List WMember} {is : List UItem} :
    convertCallbacks crate types self i ms = .ok is ↔
      Each (CallbackIs crate file self) (ms.zipIdx i) is := by
  induction ms generalizing i is with
  | nil =>
    simp only [convertCallbacks, ok_ok, List.zipIdx_nil]
    constructor
    · rintro rfl; exact .nil
    · rintro ⟨⟩; rfl
  | cons m ms ih =>
    rw [List.zipIdx_cons]
    cases m with
    | op o =>
      simp only [convertCallbacks, bind_ok, ok_ok, convertMethod_ok H, ih]
      constructor
      · rintro ⟨f, hf, rest, he, rfl⟩
        exact .cons (.mk hf) he
      · intro h
        cases h with
        | cons hm he =>
          cases hm with
          | mk hf => exact ⟨_, hf, _, he, rfl⟩
    | ctor c =>
      simp only [convertCallbacks, bail_ok, false_iff]
      intro h
      cases h with
      | cons h _ => cases h
    | other =>
      simp only [convertCallbacks, bail_ok, false_iff]
      intro h
      cases h with
      | cons h _ => cases h

theorem shape_iff {as : Attrs} {attrs : List Attribute} (hp : Parsed as attrs) {b : Bool}
    {shape : Shape} :
    (if attrs.contains .error then Shape.error b else .enum) = shape ↔
      (Marked as "Error" ∧ shape = .error b ∨ ¬Marked as "Error" ∧ shape = .enum) := by
  rw [← hp.isError]
  cases attrs.contains .error <;> simp [eq_comm]

theorem InterfaceAttrs.not_nonExhaustive {as : Attrs} (h : InterfaceAttrs as) :
    ¬Marked as "NonExhaustive" := fun hm => by
  have := h.allowed.known _ hm
  simp [onInterface, onDictionary] at this

/-- The second pass makes of a definition exactly the items it stands for. -/
theorem processDef_ok {crate ns : String} {types : Types} {file : List Def}
    (H : Right crate types file) {d : Def} {is : List UItem} :
    processDef crate ns types d = .ok is ↔ Gives crate ns file d is := by
  cases d with
  | namespace_ doc as n ms =>
    simp only [processDef, processNamespace, bind_ok, check_ok, ok_ok, mapR_ok]
    constructor
    · rintro ⟨-, ha, -, hn, fs, hf, rfl⟩
      simp at ha hn
      subst ha hn
      exact .namespace_ ((Each.iff fun a _ b => convertFn_ok H).1 hf)
    · intro h
      cases h with
      | namespace_ hf =>
        exact ⟨(), rfl, (), by simp, _, (Each.iff fun a _ b => convertFn_ok H).2 hf, rfl⟩
  | enum_ doc as n vs =>
    simp only [processDef, convertEnum, bind_ok, ok_ok, enumAttributes_ok]
    constructor
    · rintro ⟨attrs, ⟨ha, hp⟩, rfl⟩
      exact .enum_ ha ((shape_iff hp).1 rfl) hp.isRemote hp.isNonExhaustive
    · intro h
      cases h with
      | enum_ ha hs hr hne =>
        obtain ⟨attrs, hp⟩ := parsed_of_onEnum ha
        refine ⟨attrs, ⟨ha, hp⟩, ?_⟩
        rw [(shape_iff hp).2 hs, bool_eq_of_iff hp.isRemote hr,
          bool_eq_of_iff hp.isNonExhaustive hne]
  | dictionary doc as n inh ms =>
    simp only [processDef, convertDictionary, bind_ok, check_ok, ok_ok, dictionaryAttributes_ok,
      makeTraits_ok, mapR_ok]
    constructor
    · rintro ⟨attrs, ⟨ha, hp⟩, -, hi, traits, ht, fields, hf, rfl⟩
      simp at hi
      subst hi
      exact .dictionary ha hp.isRemote ((hp.traits _).1 rfl) ht
        ((Each.iff fun a _ b => convertField_ok H).1 hf)
    · intro h
      cases h with
      | dictionary ha hr hl ht hf =>
        obtain ⟨attrs, hp⟩ := parsed_of_onDictionary ha
        refine ⟨attrs, ⟨ha, hp⟩, (), rfl, _, (by rw [(hp.traits _).2 hl]; exact ht), _,
          (Each.iff fun a _ b => convertField_ok H).2 hf, ?_⟩
        rw [bool_eq_of_iff hp.isRemote hr]
  | interface doc as n inh ms =>
    simp only [processDef, bind_ok, interfaceAttributes_ok]
    constructor
    · rintro ⟨attrs, ⟨ha, hp⟩, h⟩
      split at h
      · rename_i he
        have he := (enumLike_iff hp).1 he
        simp only [convertEnumInterface, bind_ok, check_ok, ok_ok, enumAttributes_ok,
          makeTraits_ok, convertVariants_ok H] at h
        obtain ⟨-, hi, attrs', ⟨ha', hp'⟩, traits, ht, variants, hv, rfl⟩ := h
        simp at hi
        subst hi
        have hne : attrs'.contains .nonExhaustive = false := by
          rw [← Bool.not_eq_true, hp'.isNonExhaustive]
          exact ha.not_nonExhaustive
        rw [hne]
        exact .enumInterface he ha ha' ((shape_iff hp').1 rfl) hp'.isRemote ((hp'.traits _).1 rfl)
          ht hv
      · rename_i he
        have he : ¬EnumLike as := fun h => he ((enumLike_iff hp).2 h)
        simp only [convertObject, bind_ok, check_ok, ok_ok, interfaceAttributes_ok,
          makeTraits_ok, convertMembers_ok H] at h
        obtain ⟨-, hi, attrs', ⟨ha', hp'⟩, imp, himp, members, ⟨hm, hn, -⟩, traits, ht, rfl⟩ := h
        simp at hi
        subst hi
        exact .object he ha ((objectImpl_ok hp').1 himp) hp'.isRemote hm hn
          ((hp'.traits _).1 rfl) ht
    · intro h
      cases h with
      | enumInterface he ha ha' hs hr hl ht hv =>
        obtain ⟨attrs, hp⟩ := ha.parsed
        refine ⟨attrs, ⟨ha, hp⟩, ?_⟩
        rw [if_pos ((enumLike_iff hp).2 he)]
        simp only [convertEnumInterface, bind_ok, check_ok, ok_ok, enumAttributes_ok,
          makeTraits_ok, convertVariants_ok H]
        refine ⟨(), rfl, attrs, ⟨ha', hp⟩, _, (by rw [(hp.traits _).2 hl]; exact ht), _, hv, ?_⟩
        have hne : attrs.contains .nonExhaustive = false := by
          rw [← Bool.not_eq_true, hp.isNonExhaustive]
          exact ha.not_nonExhaustive
        rw [(shape_iff hp).2 hs, bool_eq_of_iff hp.isRemote hr, hne]
      | object he ha hi hr hm hn hl ht =>
        obtain ⟨attrs, hp⟩ := ha.parsed
        refine ⟨attrs, ⟨ha, hp⟩, ?_⟩
        rw [if_neg (fun h => he ((enumLike_iff hp).1 h))]
        simp only [convertObject, bind_ok, check_ok, ok_ok, interfaceAttributes_ok,
          makeTraits_ok, convertMembers_ok H]
        refine ⟨(), rfl, attrs, ⟨ha, hp⟩, _, (objectImpl_ok hp).2 hi, _, ⟨hm, hn, by simp⟩, _,
          (by rw [(hp.traits _).2 hl]; exact ht), ?_⟩
        rw [bool_eq_of_iff hp.isRemote hr]
  | callback doc as n inh ms =>
    simp only [processDef, convertCallback, bind_ok, check_ok, ok_ok, convertCallbacks_ok H]
    constructor
    · rintro ⟨-, ha, -, hi, methods, hm, rfl⟩
      simp at ha hi
      subst ha hi
      exact .callback hm
    · intro h
      cases h with
      | callback hm => exact ⟨(), rfl, (), rfl, _, hm, rfl⟩
  | typedef as ta w n =>
    simp only [processDef, ok_ok]
    constructor
    · rintro rfl; exact .typedef
    · rintro ⟨⟩; rfl
  | other => simp only [processDef, bail_ok, false_iff]; nofun

theorem insertItem_mem {items : List UItem} {i j : UItem} :
    j ∈ insertItem items i ↔ j ∈ items ∨ j = i := by
  unfold insertItem
  split <;> simp <;> grind

theorem insertItem_nodup {items : List UItem} {i : UItem} (h : items.Nodup) :
    (insertItem items i).Nodup := by
  unfold insertItem
  split
  · exact h
  · grind

theorem insertAll_mem {new items : List UItem} {j : UItem} :
    j ∈ new.foldl insertItem items ↔ j ∈ items ∨ j ∈ new := by
  induction new generalizing items with
  | nil => simp
  | cons i new ih => simp [ih, insertItem_mem, or_assoc]

theorem insertAll_nodup {new items : List UItem} (h : items.Nodup) :
    (new.foldl insertItem items).Nodup := by
  induction new generalizing items with
  | nil => exact h
  | cons i new ih => exact ih (insertItem_nodup h)

theorem processAll_ok {crate ns : String} {types : Types} {ds : List Def} {items res : List UItem}
    (h : processAll crate ns types items ds = .ok res) :
    (∀ d ∈ ds, ∃ is, processDef crate ns types d = .ok is) ∧
    (∀ i, i ∈ res ↔ i ∈ items ∨ ∃ d ∈ ds, ∃ is, processDef crate ns types d = .ok is ∧ i ∈ is) ∧
    (items.Nodup → res.Nodup) := by
  induction ds generalizing items with
  | nil => simp only [processAll, ok_ok] at h; subst h; simp
  | cons d ds ih =>
    simp only [processAll, bind_ok] at h
    obtain ⟨new, hn, h⟩ := h
    obtain ⟨h1, h2, h3⟩ := ih h
    refine ⟨?_, ?_, fun hi => h3 (insertAll_nodup hi)⟩
    · intro e he
      rcases List.mem_cons.1 he with rfl | he
      · exact ⟨new, hn⟩
      · exact h1 e he
    · intro i
      rw [h2, insertAll_mem]
      constructor
      · rintro ((h | h) | ⟨e, he, h⟩)
        · exact .inl h
        · exact .inr ⟨d, by simp, new, hn, h⟩
        · exact .inr ⟨e, by simp [he], h⟩
      · rintro (h | ⟨e, he, is, hp, h⟩)
        · exact .inl (.inl h)
        · rcases List.mem_cons.1 he with rfl | he
          · rw [hn] at hp
            simp at hp
            subst hp
            exact .inl (.inr h)
          · exact .inr ⟨e, he, is, hp, h⟩

theorem processAll_exists {crate ns : String} {types : Types} {ds : List Def} {items : List UItem}
    (h : ∀ d ∈ ds, ∃ is, processDef crate ns types d = .ok is) :
    ∃ res, processAll crate ns types items ds = .ok res := by
  induction ds generalizing items with
  | nil => exact ⟨items, rfl⟩
  | cons d ds ih =>
    obtain ⟨new, hn⟩ := h d (by simp)
    obtain ⟨res, hr⟩ := ih (items := new.foldl insertItem items) fun e he => h e (by simp [he])
    refine ⟨res, ?_⟩
    simp only [processAll, hn, bind, Except.bind]
    exact hr

theorem findNamespace_ok {file : List Def} {ns : String} :
    findNamespace file = .ok ns ↔
      ∃ before doc as ms after, file = before ++ .namespace_ doc as ns ms :: after ∧
        ∀ doc as n ms, .namespace_ doc as n ms ∉ before := by
  induction file with
  | nil => simp [findNamespace, bail]
  | cons d ds ih =>
    have skip : (∀ doc as n ms, d ≠ .namespace_ doc as n ms) →
        ((∃ before doc as ms after, d :: ds = before ++ .namespace_ doc as ns ms :: after ∧
          ∀ doc as n ms, .namespace_ doc as n ms ∉ before) ↔
        (∃ before doc as ms after, ds = before ++ .namespace_ doc as ns ms :: after ∧
          ∀ doc as n ms, .namespace_ doc as n ms ∉ before)) := by
      intro hd
      constructor
      · rintro ⟨before, doc, as, ms, after, he, hb⟩
        cases before with
        | nil => simp at he; exact absurd he.1 (hd _ _ _ _)
        | cons b bs =>
          simp at he
          exact ⟨bs, doc, as, ms, after, he.2, fun a b c e hm => hb a b c e (by simp [hm])⟩
      · rintro ⟨before, doc, as, ms, after, he, hb⟩
        refine ⟨d :: before, doc, as, ms, after, by simp [he], ?_⟩
        intro a b c e hm
        rcases List.mem_cons.1 hm with h | h
        · exact hd _ _ _ _ h.symm
        · exact hb _ _ _ _ h
    cases d with
    | namespace_ doc as n ms =>
      simp only [findNamespace, ok_ok]
      constructor
      · rintro rfl
        exact ⟨[], doc, as, ms, ds, by simp, by simp⟩
      · rintro ⟨before, doc', as', ms', after, he, hb⟩
        cases before with
        | nil => simp at he; exact he.1.2.2.1
        | cons b bs =>
          simp at he
          exact absurd (by simp [he.1]) (hb doc as n ms)
    | _ => rw [skip (by nofun)]; exact ih

theorem namespaceDoc_none {file : List Def} {doc : Option String}
    (h : ∀ d as n ms, .namespace_ d as n ms ∉ file) : namespaceDoc doc file = doc := by
  induction file with
  | nil => rfl
  | cons d ds ih =>
    cases d with
    | namespace_ a b c e => exact absurd (by simp) (h a b c e)
    | _ => exact ih fun a b c e hm => h a b c e (by simp [hm])

theorem namespaceDoc_last {file : List Def} {doc : Option String}
    (h : ∃ d as n ms, .namespace_ d as n ms ∈ file) :
    ∃ before as n ms after, file = before ++ .namespace_ (namespaceDoc doc file) as n ms :: after ∧
      ∀ d as n ms, .namespace_ d as n ms ∉ after := by
  induction file generalizing doc with
  | nil => simp at h
  | cons d ds ih =>
    by_cases hn : ∃ d as n ms, Def.namespace_ d as n ms ∈ ds
    · have go : ∀ doc, ∃ before as n ms after,
          d :: ds = before ++ .namespace_ (namespaceDoc doc ds) as n ms :: after ∧
          ∀ d as n ms, .namespace_ d as n ms ∉ after := by
        intro doc
        obtain ⟨before, as, n, ms, after, he, ha⟩ := ih (doc := doc) hn
        exact ⟨d :: before, as, n, ms, after, by rw [List.cons_append, ← he], ha⟩
      cases d with
      | namespace_ a b c e => exact go a
      | _ => exact go doc
    · have hn' : ∀ d as n ms, Def.namespace_ d as n ms ∉ ds := fun a b c e hm => hn ⟨a, b, c, e, hm⟩
      obtain ⟨a, b, c, e, hm⟩ := h
      rcases List.mem_cons.1 hm with rfl | hm
      · exact ⟨[], b, c, e, ds, by simp [namespaceDoc, namespaceDoc_none hn'], hn'⟩
      · exact absurd hm (hn' _ _ _ _)

theorem get_mem {types : Types} {n : String} {t : MTy} (h : types.get n = some t) :
    (n, t) ∈ types := by
  unfold Types.get at h
  cases hf : types.find? (·.1 = n) with
  | none => simp [hf] at h
  | some p =>
    simp [hf] at h
    have h1 := List.find?_some hf
    have h2 := List.mem_of_find?_eq_some hf
    simp at h1
    obtain ⟨a, b⟩ := p
    simp at h h1
    subst h h1
    exact h2

/-- No name is twice in the table of types. -/
def Distinct (types : Types) : Prop := ∀ n t, (n, t) ∈ types → types.get n = some t

theorem addType_distinct {types types' : Types} {n : String} {t : MTy} (hd : Distinct types)
    (h : addType types n t = .ok types') : Distinct types' := by
  have hg := addType_get h
  rcases addType_ok.1 h with ⟨h1, -, rfl⟩ | ⟨h1, rfl⟩
  · exact hd
  · intro m u hm
    rcases List.mem_append.1 hm with hm | hm
    · exact hg.2 _ _ (hd m u hm)
    · simp at hm
      obtain ⟨rfl, rfl⟩ := hm
      exact hg.1

theorem findTypes_distinct {crate : String} {a b : Types} {ds : List Def} (ha : Distinct a)
    (h : findTypes crate a ds = .ok b) : Distinct b := by
  induction ds generalizing a with
  | nil => simp only [findTypes, ok_ok] at h; exact h ▸ ha
  | cons d ds ih =>
    simp only [findTypes, bind_ok] at h
    obtain ⟨c, hc, h⟩ := h
    refine ih ?_ h
    rcases findType_ok.1 hc with ⟨n, t, -, -, hadd⟩ | ⟨-, rfl⟩
    · exact addType_distinct ha hadd
    · exact ha

theorem customItems_mem {types : Types} {i : UItem} :
    i ∈ customItems types ↔ ∃ k m n b, (k, .custom m n b) ∈ types ∧ i = .custom m n b := by
  simp only [customItems, List.mem_filterMap]
  constructor
  · rintro ⟨⟨k, t⟩, hm, h⟩
    cases t <;> simp at h
    subst h
    exact ⟨k, _, _, _, hm, rfl⟩
  · rintro ⟨k, m, n, b, hm, rfl⟩
    exact ⟨_, hm, rfl⟩

theorem known_custom {crate : String} {file : List Def} {k m n : String} {b : MTy}
    (h : Known crate file k (.custom m n b)) : k = n := by
  cases h with
  | mk _ h =>
    cases h with
    | keyword _ _ hk => cases hk
    | custom => rfl

end Verif.Udl.File
