import Verif.Udl.CollectKinds
/-
Lemmas about type expressions and about the first pass, which finds the types.
-/
namespace Verif.Udl.File
open Verif.Meta Verif.Udl

theorem some_of_ite {α : Type} {p : Prop} [Decidable p] {a t : α} {o : Option α}
    (h : (if p then some a else o) = some t) : (p ∧ a = t) ∨ o = some t := by
  by_cases hp : p
  · rw [if_pos hp] at h; exact .inl ⟨hp, by simpa using h⟩
  · rw [if_neg hp] at h; exact .inr h

theorem builtinType_some {n : String} {t : MTy} : builtinType n = some t ↔ (n, t) ∈ builtins := by
  constructor
  · intro h
    unfold builtinType at h
    iterate 14
      rcases some_of_ite h with ⟨rfl, rfl⟩ | h
      · decide
    cases h
  · intro h
    simp only [builtins, List.mem_cons, Prod.mk.injEq, List.not_mem_nil, or_false] at h
    rcases h with ⟨rfl, rfl⟩ | ⟨rfl, rfl⟩ | ⟨rfl, rfl⟩ | ⟨rfl, rfl⟩ | ⟨rfl, rfl⟩ | ⟨rfl, rfl⟩ |
      ⟨rfl, rfl⟩ | ⟨rfl, rfl⟩ | ⟨rfl, rfl⟩ | ⟨rfl, rfl⟩ | ⟨rfl, rfl⟩ | ⟨rfl, rfl⟩ | ⟨rfl, rfl⟩ |
      ⟨rfl, rfl⟩ <;> decide

theorem builtinType_none {n : String} : builtinType n = none ↔ ∀ t, (n, t) ∉ builtins := by
  constructor
  · intro h t ht
    rw [← builtinType_some, h] at ht
    simp at ht
  · intro h
    cases hb : builtinType n with
    | none => rfl
    | some t => exact absurd (builtinType_some.1 hb) (h t)

/-- The types found are those of a list of definitions. -/
def Right (crate : String) (types : Types) (file : List Def) : Prop :=
  ∀ n t, types.get n = some t ↔ Known crate file n t

/-- The types found are some of those of a list of definitions. -/
def Sound (crate : String) (types : Types) (file : List Def) : Prop :=
  ∀ n t, types.get n = some t → Known crate file n t

theorem Right.sound {crate : String} {types : Types} {file : List Def}
    (h : Right crate types file) : Sound crate types file := fun n t => (h n t).1

theorem resolveName_ok {types : Types} {n : String} {t : MTy} :
    resolveName types n = .ok t ↔
      (n, t) ∈ builtins ∨ ((∀ t', (n, t') ∉ builtins) ∧ types.get n = some t) := by
  unfold resolveName
  cases h : builtinType n with
  | some b =>
    have hb := builtinType_some.1 h
    simp only [ok_ok]
    constructor
    · rintro rfl; exact .inl hb
    · rintro (ht | ⟨hn, -⟩)
      · rw [← builtinType_some, h] at ht
        simpa using ht
      · exact absurd hb (hn b)
  | none =>
    have hb := builtinType_none.1 h
    simp only [need_ok]
    constructor
    · exact fun ht => .inr ⟨hb, ht⟩
    · rintro (ht | ⟨-, ht⟩)
      · exact absurd ht (hb t)
      · exact ht

mutual
  theorem resolve_sound {crate : String} {types : Types} {file : List Def}
      (H : Sound crate types file) :
      ∀ {w : WTy} {t : MTy}, resolve types w = .ok t → Means crate file w t
    | .any, t, h => by simp [resolve, bail] at h
    | .union, t, h => by simp [resolve, bail] at h
    | .boolean q, t, h => by
      simp only [resolve, ok_ok] at h; subst h; exact .boolean
    | .identifier n q, t, h => by
      simp only [resolve, bind_ok, ok_ok] at h
      obtain ⟨u, hu, rfl⟩ := h
      rcases resolveName_ok.1 hu with hb | ⟨hb, hg⟩
      · exact .builtin hb
      · exact .named hb (H _ _ hg)
    | .integer q, t, h => by simp [resolve, bail] at h
    | .float u q, t, h => by
      cases u <;> simp [resolve, bail] at h
      subst h; exact .float
    | .double u q, t, h => by
      cases u <;> simp [resolve, bail] at h
      subst h; exact .double
    | .sequence inner q, t, h => by
      simp only [resolve, bind_ok, ok_ok] at h
      obtain ⟨u, hu, rfl⟩ := h
      exact .sequence (resolve_sound H hu)
    | .record key value q, t, h => by
      simp only [resolve, bind_ok, ok_ok] at h
      obtain ⟨k, hk, v, hv, rfl⟩ := h
      exact .record (resolveKey_sound H hk) (resolve_sound H hv)
    | .error q, t, h => by simp [resolve, bail] at h
    | .other s, t, h => by simp [resolve, bail] at h
  theorem resolveKey_sound {crate : String} {types : Types} {file : List Def}
      (H : Sound crate types file) :
      ∀ {w : WKey} {t : MTy}, resolveKey types w = .ok t → KeyMeans crate file w t
    | .byte, t, h => by simp [resolveKey, bail] at h
    | .dom, t, h => by simp only [resolveKey, ok_ok] at h; subst h; exact .dom
    | .ty w, t, h => by
      simp only [resolveKey] at h
      exact .ty (resolve_sound H h)
end

mutual
  theorem resolve_complete {crate : String} {types : Types} {file : List Def}
      (H : Right crate types file) :
      ∀ {w : WTy} {t : MTy}, Means crate file w t → resolve types w = .ok t
    | .any, t, h => by cases h
    | .union, t, h => by cases h
    | .boolean q, t, h => by cases h; rfl
    | .identifier n q, t, h => by
      simp only [resolve, bind_ok, ok_ok]
      cases h with
      | builtin hb => exact ⟨_, resolveName_ok.2 (.inl hb), rfl⟩
      | named hb hk => exact ⟨_, resolveName_ok.2 (.inr ⟨hb, (H _ _).2 hk⟩), rfl⟩
    | .integer q, t, h => by cases h
    | .float u q, t, h => by cases h; simp [resolve, mayBeNull, orNull]
    | .double u q, t, h => by cases h; simp [resolve, mayBeNull, orNull]
    | .sequence inner q, t, h => by
      simp only [resolve, bind_ok, ok_ok]
      cases h with
      | sequence hi => exact ⟨_, resolve_complete H hi, rfl⟩
    | .record key value q, t, h => by
      simp only [resolve, bind_ok, ok_ok]
      cases h with
      | record hk hv => exact ⟨_, resolveKey_complete H hk, _, resolve_complete H hv, rfl⟩
    | .error q, t, h => by cases h
    | .other s, t, h => by cases h
  theorem resolveKey_complete {crate : String} {types : Types} {file : List Def}
      (H : Right crate types file) :
      ∀ {w : WKey} {t : MTy}, KeyMeans crate file w t → resolveKey types w = .ok t
    | .byte, t, h => by cases h
    | .dom, t, h => by cases h; rfl
    | .ty w, t, h => by
      simp only [resolveKey]
      cases h with
      | ty hw => exact resolve_complete H hw
end

theorem resolve_ok {crate : String} {types : Types} {file : List Def}
    (H : Right crate types file) {w : WTy} {t : MTy} :
    resolve types w = .ok t ↔ Means crate file w t :=
  ⟨resolve_sound H.sound, resolve_complete H⟩

/-- More types are known. -/
def Ext (a b : Types) : Prop := ∀ n t, a.get n = some t → b.get n = some t

theorem Ext.refl {a : Types} : Ext a a := fun _ _ h => h
theorem Ext.trans {a b c : Types} (h : Ext a b) (k : Ext b c) : Ext a c :=
  fun n t hn => k n t (h n t hn)

theorem resolveName_ext {a b : Types} (h : Ext a b) {n : String} {t : MTy}
    (hr : resolveName a n = .ok t) : resolveName b n = .ok t := by
  rw [resolveName_ok] at hr ⊢
  exact hr.imp_right fun ⟨h1, h2⟩ => ⟨h1, h n t h2⟩

mutual
  theorem resolve_ext {a b : Types} (H : Ext a b) :
      ∀ {w : WTy} {t : MTy}, resolve a w = .ok t → resolve b w = .ok t
    | .any, t, h => by simp [resolve, bail] at h
    | .union, t, h => by simp [resolve, bail] at h
    | .boolean q, t, h => h
    | .identifier n q, t, h => by
      simp only [resolve, bind_ok, ok_ok] at h ⊢
      obtain ⟨u, hu, rfl⟩ := h
      exact ⟨u, resolveName_ext H hu, rfl⟩
    | .integer q, t, h => by simp [resolve, bail] at h
    | .float u q, t, h => by simpa only [resolve] using h
    | .double u q, t, h => by simpa only [resolve] using h
    | .sequence inner q, t, h => by
      simp only [resolve, bind_ok, ok_ok] at h ⊢
      obtain ⟨u, hu, rfl⟩ := h
      exact ⟨u, resolve_ext H hu, rfl⟩
    | .record key value q, t, h => by
      simp only [resolve, bind_ok, ok_ok] at h ⊢
      obtain ⟨k, hk, v, hv, rfl⟩ := h
      exact ⟨k, resolveKey_ext H hk, v, resolve_ext H hv, rfl⟩
    | .error q, t, h => by simp [resolve, bail] at h
    | .other s, t, h => by simp [resolve, bail] at h
  theorem resolveKey_ext {a b : Types} (H : Ext a b) :
      ∀ {w : WKey} {t : MTy}, resolveKey a w = .ok t → resolveKey b w = .ok t
    | .byte, t, h => by simp [resolveKey, bail] at h
    | .dom, t, h => h
    | .ty w, t, h => by
      simp only [resolveKey] at h ⊢
      exact resolve_ext H h
end

theorem get_append {types : Types} {n m : String} {t : MTy} :
    Types.get (types ++ [(n, t)]) m =
      (match types.get m with
        | some u => some u
        | none => if n = m then some t else none) := by
  unfold Types.get
  rw [List.find?_append]
  cases h : types.find? (·.1 = m) with
  | some u => simp
  | none => simp

/-- Records and enums may be defined again. -/
def Again (t : MTy) : Prop := (∃ m k, t = .record m k) ∨ ∃ m k, t = .enum m k

theorem addType_ok {types types' : Types} {n : String} {t : MTy} :
    addType types n t = .ok types' ↔
      (types.get n = some t ∧ Again t ∧ types' = types) ∨
      (types.get n = none ∧ types' = types ++ [(n, t)]) := by
  unfold addType
  cases h : types.get n with
  | none => simp; exact eq_comm
  | some old =>
    simp only [Option.some.injEq, reduceCtorEq, false_and, or_false]
    split
    · rename_i hc
      obtain ⟨rfl, hm⟩ := hc
      simp only [ok_ok, true_and]
      have : Again t := by
        cases t <;> simp [mayRepeat] at hm
        · exact .inl ⟨_, _, rfl⟩
        · exact .inr ⟨_, _, rfl⟩
      simp [this, eq_comm]
    · rename_i hc
      simp only [bail_ok, false_iff]
      rintro ⟨rfl, ha, -⟩
      refine hc ⟨rfl, ?_⟩
      rcases ha with ⟨m, k, rfl⟩ | ⟨m, k, rfl⟩ <;> rfl

theorem addType_get {types types' : Types} {n : String} {t : MTy}
    (h : addType types n t = .ok types') : types'.get n = some t ∧ Ext types types' := by
  rcases addType_ok.1 h with ⟨h1, -, rfl⟩ | ⟨h1, rfl⟩
  · exact ⟨h1, .refl⟩
  · constructor
    · rw [get_append, h1]; simp
    · intro m u hm
      rw [get_append, hm]

theorem addType_cases {types types' : Types} {n m : String} {t u : MTy}
    (h : addType types n t = .ok types') (hg : types'.get m = some u) :
    types.get m = some u ∨ (m = n ∧ u = t) := by
  rcases addType_ok.1 h with ⟨h1, -, rfl⟩ | ⟨h1, rfl⟩
  · exact .inl hg
  · rw [get_append] at hg
    split at hg
    · rename_i hs; rw [hs]; exact .inl hg
    · split at hg
      · simp at hg; rename_i hn; exact .inr ⟨hn.symm, hg.symm⟩
      · simp at hg

theorem addType_exists {types : Types} {n : String} {t : MTy} :
    (∃ types', addType types n t = .ok types') ↔ ∀ t', types.get n = some t' → t' = t ∧ Again t := by
  constructor
  · rintro ⟨types', h⟩ t' ht
    rcases addType_ok.1 h with ⟨h1, h2, -⟩ | ⟨h1, -⟩
    · rw [h1] at ht; simp at ht; exact ⟨ht.symm, h2⟩
    · rw [h1] at ht; simp at ht
  · intro h
    cases hg : types.get n with
    | none => exact ⟨_, addType_ok.2 (.inr ⟨hg, rfl⟩)⟩
    | some t' =>
      obtain ⟨rfl, h2⟩ := h t' hg
      exact ⟨_, addType_ok.2 (.inl ⟨hg, h2, rfl⟩)⟩

theorem typedefType_ok {m n k : String} {t : MTy} :
    typedefType m n k = .ok t ↔ Keyword m n k t := by
  constructor
  · intro h
    unfold typedefType at h
    split at h
    · simp at h; subst h
      rename_i hk
      rcases hk with rfl | rfl | rfl
      · exact .dictionary
      · exact .record
      · exact .struct
    · split at h
      · simp at h; subst h; rename_i hk; subst hk; exact .enum
      · split at h
        · simp at h; subst h
          rename_i hk
          rcases hk with rfl | rfl
          · exact .interface
          · exact .impl
        · split at h
          · simp at h; subst h; rename_i hk; subst hk; exact .trait
          · split at h
            · simp at h; subst h
              rename_i hk
              rcases hk with rfl | rfl
              · exact .callback
              · exact .withForeign
            · simp [bail] at h
  · intro h
    cases h <;> simp [typedefType]

/-- A definition introduces a name for a type, with any reading of type expressions. -/
inductive Intro (crate : String) (R : WTy → MTy → Prop) : Def → String → MTy → Prop
  | enum_ {doc as n vs} : Intro crate R (.enum_ doc as n vs) n (.enum crate n)
  | dictionary {doc as n inh ms} :
    Intro crate R (.dictionary doc as n inh ms) n (.record crate n)
  | enumInterface {doc as n inh ms} : EnumLike as →
    Intro crate R (.interface doc as n inh ms) n (.enum crate n)
  | object {doc as n inh ms imp} : ¬EnumLike as → IsImpl as imp →
    Intro crate R (.interface doc as n inh ms) n (.object crate n imp)
  | callback {doc as n inh ms} :
    Intro crate R (.callback doc as n inh ms) n (.callbackInterface crate n)
  | keyword {as ta k q n m t} : ¬CustomLike as → CrateIs crate as m → Keyword m n k t →
    Intro crate R (.typedef as ta (.identifier k q) n) n t
  | custom {as w n m t} : CustomLike as → CrateIs crate as m → R w t →
    Intro crate R (.typedef as false w n) n (.custom m n t)

theorem introduces_iff {crate : String} {file : List Def} {d : Def} {n : String} {t : MTy} :
    Introduces crate file d n t ↔ Intro crate (Means crate file) d n t := by
  constructor
  · intro h
    cases h with
    | enum_ => exact .enum_
    | dictionary => exact .dictionary
    | enumInterface h => exact .enumInterface h
    | object h h' => exact .object h h'
    | callback => exact .callback
    | keyword h h' h'' => exact .keyword h h' h''
    | custom h h' h'' => exact .custom h h' h''
  · intro h
    cases h with
    | enum_ => exact .enum_
    | dictionary => exact .dictionary
    | enumInterface h => exact .enumInterface h
    | object h h' => exact .object h h'
    | callback => exact .callback
    | keyword h h' h'' => exact .keyword h h' h''
    | custom h h' h'' => exact .custom h h' h''

theorem Intro.mono {crate : String} {R S : WTy → MTy → Prop} (hRS : ∀ w t, R w t → S w t) {d : Def}
    {n : String} {t : MTy} (h : Intro crate R d n t) : Intro crate S d n t := by
  cases h with
  | enum_ => exact .enum_
  | dictionary => exact .dictionary
  | enumInterface h => exact .enumInterface h
  | object h h' => exact .object h h'
  | callback => exact .callback
  | keyword h h' h'' => exact .keyword h h' h''
  | custom h h' h'' => exact .custom h h' (hRS _ _ h'')

/-- A definition that does not introduce a type. -/
def NoType : Def → Prop
  | .namespace_ _ _ _ _ => True
  | .other => True
  | _ => False

theorem enumLike_iff {as : Attrs} {attrs : List Attribute} (h : Parsed as attrs) :
    (attrs.contains .enum || attrs.contains .error) = true ↔ EnumLike as := by
  rw [Bool.or_eq_true, h.isEnum, h.isError, EnumLike]

theorem resolveAttributed_ok {types : Types} {ta : Bool} {w : WTy} {t : MTy} :
    resolveAttributed types ta w = .ok t ↔ ta = false ∧ resolve types w = .ok t := by
  simp only [resolveAttributed, bind_ok, check_ok]
  cases ta <;> simp

theorem findType_ok {crate : String} {types types' : Types} {d : Def} :
    findType crate types d = .ok types' ↔
      (∃ n t, AttrsOk d ∧ Intro crate (fun w t => resolve types w = .ok t) d n t ∧
        addType types n t = .ok types') ∨ (NoType d ∧ types' = types) := by
  cases d with
  | namespace_ doc as n ms =>
    simp only [findType, ok_ok, NoType, true_and]
    constructor
    · intro h; exact .inr h.symm
    · rintro (⟨n, t, -, h, -⟩ | h)
      · cases h
      · exact h.symm
  | other =>
    simp only [findType, ok_ok, NoType, true_and]
    constructor
    · intro h; exact .inr h.symm
    · rintro (⟨n, t, -, h, -⟩ | h)
      · cases h
      · exact h.symm
  | enum_ doc as n vs =>
    simp only [findType, NoType, false_and, or_false, AttrsOk, true_and]
    constructor
    · intro h; exact ⟨_, _, .enum_, h⟩
    · rintro ⟨n, t, h, h'⟩; cases h; exact h'
  | dictionary doc as n inh ms =>
    simp only [findType, NoType, false_and, or_false, AttrsOk, true_and]
    constructor
    · intro h; exact ⟨_, _, .dictionary, h⟩
    · rintro ⟨n, t, h, h'⟩; cases h; exact h'
  | callback doc as n inh ms =>
    simp only [findType, NoType, false_and, or_false, AttrsOk, bind_ok, check_ok]
    constructor
    · rintro ⟨-, h, h'⟩
      exact ⟨_, _, by simpa using h, .callback, h'⟩
    · rintro ⟨n, t, rfl, h, h'⟩; cases h; exact ⟨(), rfl, h'⟩
  | interface doc as n inh ms =>
    simp only [findType, NoType, false_and, or_false, AttrsOk, bind_ok, interfaceAttributes_ok]
    constructor
    · rintro ⟨attrs, ⟨ha, hp⟩, h⟩
      split at h
      · rename_i he
        exact ⟨_, _, ha, .enumInterface ((enumLike_iff hp).1 he), h⟩
      · rename_i he
        rw [bind_ok] at h
        obtain ⟨imp, hi, h⟩ := h
        exact ⟨_, _, ha, .object (fun h => he ((enumLike_iff hp).2 h)) ((objectImpl_ok hp).1 hi), h⟩
    · rintro ⟨n, t, ha, h, h'⟩
      obtain ⟨attrs, hp⟩ := ha.parsed
      refine ⟨attrs, ⟨ha, hp⟩, ?_⟩
      cases h with
      | enumInterface he => rw [if_pos ((enumLike_iff hp).2 he)]; exact h'
      | object he hi =>
        rw [if_neg (fun h => he ((enumLike_iff hp).1 h)), bind_ok]
        exact ⟨_, (objectImpl_ok hp).2 hi, h'⟩
  | typedef as ta w n =>
    simp only [findType, NoType, false_and, or_false, AttrsOk, bind_ok, typedefAttributes_ok]
    constructor
    · rintro ⟨attrs, ⟨ha, hp⟩, h⟩
      split at h
      · rename_i hc
        simp only [bind_ok, resolveAttributed_ok] at h
        obtain ⟨b, ⟨rfl, hr⟩, h⟩ := h
        exact ⟨_, _, ha, .custom (hp.custom.1 hc) ((hp.crate ha _).1 rfl) hr, h⟩
      · rename_i hc
        split at h
        · rw [bind_ok] at h
          obtain ⟨t, ht, h⟩ := h
          exact ⟨_, _, ha, .keyword (fun h => hc (hp.custom.2 h)) ((hp.crate ha _).1 rfl)
            (typedefType_ok.1 ht), h⟩
        · simp [bail] at h
    · rintro ⟨n, t, ha, h, h'⟩
      obtain ⟨attrs, hp⟩ := ha.parsed
      refine ⟨attrs, ⟨ha, hp⟩, ?_⟩
      cases h with
      | keyword hc hm hk =>
        rw [if_neg (fun h => hc (hp.custom.1 h))]
        dsimp only
        rw [bind_ok, (hp.crate ha _).2 hm]
        exact ⟨_, typedefType_ok.2 hk, h'⟩
      | custom hc hm hr =>
        rw [if_pos (hp.custom.2 hc), bind_ok, (hp.crate ha _).2 hm]
        exact ⟨_, resolveAttributed_ok.2 ⟨rfl, hr⟩, h'⟩

theorem findType_ext {crate : String} {a b : Types} {d : Def}
    (h : findType crate a d = .ok b) : Ext a b := by
  rcases findType_ok.1 h with ⟨n, t, -, -, h⟩ | ⟨-, rfl⟩
  · exact (addType_get h).2
  · exact .refl

theorem findTypes_ext {crate : String} {a b : Types} {ds : List Def}
    (h : findTypes crate a ds = .ok b) : Ext a b := by
  induction ds generalizing a with
  | nil => simp only [findTypes, ok_ok] at h; exact h ▸ .refl
  | cons d ds ih =>
    simp only [findTypes, bind_ok] at h
    obtain ⟨c, hc, h⟩ := h
    exact (findType_ext hc).trans (ih h)

theorem findTypes_sound {crate : String} {file : List Def} {a b : Types} {ds : List Def}
    (hs : ∀ d ∈ ds, d ∈ file) (ha : Sound crate a file) (h : findTypes crate a ds = .ok b) :
    Sound crate b file := by
  induction ds generalizing a with
  | nil => simp only [findTypes, ok_ok] at h; exact h ▸ ha
  | cons d ds ih =>
    simp only [findTypes, bind_ok] at h
    obtain ⟨c, hc, h⟩ := h
    refine ih (fun x hx => hs x (by simp [hx])) ?_ h
    rcases findType_ok.1 hc with ⟨n, t, -, hi, hadd⟩ | ⟨-, rfl⟩
    · intro m u hm
      rcases addType_cases hadd hm with hm | ⟨rfl, rfl⟩
      · exact ha m u hm
      · exact .mk (hs d (by simp))
          (introduces_iff.2 (hi.mono fun w t hr => resolve_sound ha hr))
    · exact ha

/-- Every definition was read at its place. -/
theorem findTypes_at {crate : String} {a b : Types} {ds : List Def} {d : Def} (hd : d ∈ ds)
    (h : findTypes crate a ds = .ok b) :
    ∃ x y, findType crate x d = .ok y ∧ Ext x b ∧ Ext y b := by
  induction ds generalizing a with
  | nil => simp at hd
  | cons e ds ih =>
    simp only [findTypes, bind_ok] at h
    obtain ⟨c, hc, h⟩ := h
    rcases List.mem_cons.1 hd with rfl | hd
    · exact ⟨a, c, hc, (findType_ext hc).trans (findTypes_ext h), findTypes_ext h⟩
    · exact ih hd h

theorem crateIs_fun {crate : String} {as : Attrs} (ha : TypedefAttrs as) {m m' : String}
    (h : CrateIs crate as m) (h' : CrateIs crate as m') : m = m' := by
  obtain ⟨attrs, hp⟩ := ha.parsed
  exact ((hp.crate ha _).2 h).symm.trans ((hp.crate ha _).2 h')

theorem isImpl_fun {as : Attrs} {i j : Impl} (h : IsImpl as i) (h' : IsImpl as j) : i = j := by
  cases h <;> cases h' <;> first | rfl | contradiction

theorem keyword_fun {m n k : String} {t u : MTy} (h : Keyword m n k t) (h' : Keyword m n k u) :
    t = u := by
  have h1 := typedefType_ok.2 h
  rw [typedefType_ok.2 h'] at h1
  simpa using h1.symm

/-- What a definition introduces is determined by how its type expression is read. -/
theorem Intro.fun {crate : String} {R S : WTy → MTy → Prop}
    (hRS : ∀ w t u, R w t → S w u → t = u) {d : Def} (ha : AttrsOk d) {n n' : String} {t t' : MTy}
    (h : Intro crate R d n t) (h' : Intro crate S d n' t') : n = n' ∧ t = t' := by
  cases h with
  | enum_ => cases h'; exact ⟨rfl, rfl⟩
  | dictionary => cases h'; exact ⟨rfl, rfl⟩
  | enumInterface he =>
    cases h' with
    | enumInterface => exact ⟨rfl, rfl⟩
    | object hn => exact absurd he hn
  | object hn hi =>
    cases h' with
    | enumInterface he => exact absurd he hn
    | object _ hj => exact ⟨rfl, by rw [isImpl_fun hi hj]⟩
  | callback => cases h'; exact ⟨rfl, rfl⟩
  | keyword hc hm hk =>
    cases h' with
    | keyword _ hm' hk' =>
      have := crateIs_fun ha hm hm'
      subst this
      exact ⟨rfl, keyword_fun hk hk'⟩
    | custom hc' => exact absurd hc' hc
  | custom hc hm hr =>
    cases h' with
    | keyword hc' => exact absurd hc hc'
    | custom _ hm' hr' =>
      have := crateIs_fun ha hm hm'
      subst this
      exact ⟨rfl, by rw [hRS _ _ _ hr hr']⟩

theorem known_found {crate : String} {file : List Def} {types : Types}
    (h : findTypes crate [] file = .ok types) {n : String} {t : MTy} (hk : Known crate file n t) :
    types.get n = some t := by
  have step : ∀ {d n t}, d ∈ file → Intro crate (fun w t => resolve types w = .ok t) d n t →
      types.get n = some t := by
    intro d n t hd hi
    obtain ⟨x, y, hx, ex, ey⟩ := findTypes_at hd h
    rcases findType_ok.1 hx with ⟨n', t', ha, hi', hadd⟩ | ⟨hn, -⟩
    · have := Intro.fun (R := fun w t => resolve types w = .ok t)
        (S := fun w t => resolve x w = .ok t) (fun w t u h1 h2 => by
          have := resolve_ext ex h2
          rw [h1] at this; simpa using this) ha hi hi'
      obtain ⟨rfl, rfl⟩ := this
      exact ey _ _ (addType_get hadd).1
    · cases hi <;> cases hn
  refine Known.rec (crate := crate) (file := file)
    (motive_1 := fun n t _ => types.get n = some t)
    (motive_2 := fun d n t _ => d ∈ file → types.get n = some t)
    (motive_3 := fun w t _ => resolve types w = .ok t)
    (motive_4 := fun w t _ => resolveKey types w = .ok t)
    ?_ ?_ ?_ ?_ ?_ ?_ ?_ ?_ ?_ ?_ ?_ ?_ ?_ ?_ ?_ ?_ ?_ hk
  · intro d n t hd _ ih; exact ih hd
  · intro doc as n vs hd; exact step hd .enum_
  · intro doc as n inh ms hd; exact step hd .dictionary
  · intro doc as n inh ms he hd; exact step hd (.enumInterface he)
  · intro doc as n inh ms imp he hi hd; exact step hd (.object he hi)
  · intro doc as n inh ms hd; exact step hd .callback
  · intro as ta k q n m t hc hm hk hd; exact step hd (.keyword hc hm hk)
  · intro as w n m t hc hm _ ih hd; exact step hd (.custom hc hm ih)
  · intro q; rfl
  · intro q; simp [resolve, mayBeNull, orNull]
  · intro q; simp [resolve, mayBeNull, orNull]
  · intro n q t hb
    simp only [resolve, bind_ok, ok_ok]
    exact ⟨_, resolveName_ok.2 (.inl hb), rfl⟩
  · intro n q t hb _ ih
    simp only [resolve, bind_ok, ok_ok]
    exact ⟨_, resolveName_ok.2 (.inr ⟨hb, ih⟩), rfl⟩
  · intro w q t _ ih
    simp only [resolve, bind_ok, ok_ok]
    exact ⟨_, ih, rfl⟩
  · intro k v q kt vt _ _ ih1 ih2
    simp only [resolve, bind_ok, ok_ok]
    exact ⟨_, ih1, _, ih2, rfl⟩
  · rfl
  · intro w t _ ih
    simp only [resolveKey]
    exact ih

/-- The first pass finds exactly the types the file defines. -/
theorem findTypes_right {crate : String} {file : List Def} {types : Types}
    (h : findTypes crate [] file = .ok types) : Right crate types file := fun _ _ =>
  ⟨findTypes_sound (fun _ hd => hd) (fun _ _ h => by simp [Types.get] at h) h _ _, known_found h⟩

theorem Intro.iff {crate : String} {R S : WTy → MTy → Prop} (hRS : ∀ w t, R w t ↔ S w t) {d : Def}
    {n : String} {t : MTy} : Intro crate R d n t ↔ Intro crate S d n t :=
  ⟨Intro.mono fun w t => (hRS w t).1, Intro.mono fun w t => (hRS w t).2⟩

theorem findType_exists {crate : String} {before : List Def} {types : Types}
    (H : Right crate types before) {d : Def} :
    (∃ types', findType crate types d = .ok types') ↔ TypeOk crate before d := by
  constructor
  · rintro ⟨types', h⟩
    rcases findType_ok.1 h with ⟨n, t, ha, hi, hadd⟩ | ⟨hn, -⟩
    · rw [Intro.iff fun w t => resolve_ok H, ← introduces_iff] at hi
      refine .type ha hi fun t' hk => ?_
      exact addType_exists.1 ⟨_, hadd⟩ t' ((H _ _).2 hk)
    · cases d <;> cases hn
      · exact .namespace_
      · exact .other
  · intro h
    cases h with
    | namespace_ => exact ⟨types, rfl⟩
    | other => exact ⟨types, rfl⟩
    | @type _ n t ha hi hk =>
      rw [introduces_iff, ← Intro.iff fun w t => resolve_ok H] at hi
      obtain ⟨types', hadd⟩ := addType_exists.2 fun t' ht => hk t' ((H n t').1 ht)
      exact ⟨types', findType_ok.2 (.inl ⟨n, t, ha, hi, hadd⟩)⟩

theorem findTypes_append {crate : String} {a b : Types} {xs ys : List Def}
    (h : findTypes crate a xs = .ok b) : findTypes crate a (xs ++ ys) = findTypes crate b ys := by
  induction xs generalizing a with
  | nil => simp only [findTypes, ok_ok] at h; simp [h]
  | cons d ds ih =>
    simp only [findTypes, bind_ok] at h
    obtain ⟨c, hc, h⟩ := h
    simp only [List.cons_append, findTypes, hc, bind, Except.bind]
    exact ih h

theorem findTypes_exists {crate : String} {pre : List Def} {types : Types} {ds : List Def}
    (h : findTypes crate [] pre = .ok types) :
    (∃ types', findTypes crate types ds = .ok types') ↔
      ∀ before d after, ds = before ++ d :: after → TypeOk crate (pre ++ before) d := by
  induction ds generalizing pre types with
  | nil =>
    simp [findTypes]
  | cons d ds ih =>
    simp only [findTypes, bind_ok]
    constructor
    · rintro ⟨types', c, hc, h'⟩ before e after he
      cases before with
      | nil =>
        simp at he
        obtain ⟨rfl, rfl⟩ := he
        simpa using (findType_exists (findTypes_right h)).1 ⟨c, hc⟩
      | cons b bs =>
        simp at he
        obtain ⟨rfl, rfl⟩ := he
        have h2 : findTypes crate [] (pre ++ [d]) = .ok c := by
          rw [findTypes_append h]; simp [findTypes, hc, bind, Except.bind]
        have := (ih h2).1 ⟨types', h'⟩ bs e after rfl
        simpa using this
    · intro hall
      obtain ⟨c, hc⟩ := (findType_exists (findTypes_right h)).2 (by simpa using hall [] d ds rfl)
      have h2 : findTypes crate [] (pre ++ [d]) = .ok c := by
        rw [findTypes_append h]; simp [findTypes, hc, bind, Except.bind]
      obtain ⟨types', h'⟩ := (ih h2).2 fun before e after he => by
        have := hall (d :: before) e after (by simp [he])
        simpa using this
      exact ⟨types', c, hc, h'⟩

end Verif.Udl.File
