import Verif.Udl.CollectItems
/-
Lemmas about where reading a file panics, and about files with the same definitions.
-/
namespace Verif.Udl.File
open Verif.Meta Verif.Udl

/-- It does not panic. -/
def Calm {α : Type} (x : Res α) : Prop := x ≠ .error .panic

theorem Calm.ok {α : Type} {a : α} : Calm (.ok a : Res α) := by simp [Calm]
theorem Calm.bail {α : Type} : Calm (bail : Res α) := by simp [Calm, File.bail]
theorem Calm.check {b : Bool} : Calm (check b) := by
  unfold File.check; split
  · exact .ok
  · exact .bail
theorem Calm.need {α : Type} {o : Option α} : Calm (need o) := by
  cases o
  · exact .bail
  · exact .ok

theorem panic_bind {α β : Type} {x : Res α} {f : α → Res β} :
    (x >>= f) = .error .panic ↔ x = .error .panic ∨ ∃ a, x = .ok a ∧ f a = .error .panic := by
  cases x <;> simp [bind, Except.bind]

theorem Calm.bind {α β : Type} {x : Res α} {f : α → Res β} (hx : Calm x) (hf : ∀ a, Calm (f a)) :
    Calm (x >>= f) := by
  intro h
  rcases panic_bind.1 h with h | ⟨a, -, h⟩
  · exact hx h
  · exact hf a h

theorem Calm.ite {α : Type} {p : Prop} [Decidable p] {x y : Res α} (hx : Calm x) (hy : Calm y) :
    Calm (if p then x else y) := by
  split
  · exact hx
  · exact hy

theorem Calm.mapR {α β : Type} {f : α → Res β} (hf : ∀ a, Calm (f a)) {as : List α} :
    Calm (mapR f as) := by
  induction as with
  | nil => exact .ok
  | cons a as ih => exact .bind (hf a) fun _ => .bind ih fun _ => .ok

theorem toAttribute_calm {a : Attr} : Calm (toAttribute a) := by
  unfold toAttribute
  split
  all_goals repeat' first | apply Calm.ite | exact .ok | exact .bail

theorem parseAttributes_calm {valid : Attribute → Bool} {l : List Attr} :
    Calm (parseAttributes valid l) :=
  .bind .check fun _ => .bind (.mapR fun _ => toAttribute_calm) fun _ => .bind .check fun _ => .ok

theorem optAttributes_calm {f : List Attr → Res (List Attribute)} (hf : ∀ l, Calm (f l))
    {as : Attrs} : Calm (optAttributes f as) := by
  cases as
  · exact .ok
  · exact hf _

theorem interfaceAttributes_calm {as : Attrs} : Calm (optAttributes interfaceAttributes as) :=
  optAttributes_calm fun _ => .bind parseAttributes_calm fun _ => .bind .check fun _ =>
    .bind .check fun _ => .ok

theorem argumentAttributes_calm {as : Attrs} : Calm (optAttributes argumentAttributes as) :=
  optAttributes_calm fun _ => .bind parseAttributes_calm fun _ => .bind .check fun _ => .ok

theorem typedefAttributes_calm {as : Attrs} : Calm (optAttributes typedefAttributes as) :=
  optAttributes_calm fun _ => .bind parseAttributes_calm fun _ => .bind .check fun _ => .ok

theorem resolveName_calm {types : Types} {n : String} : Calm (resolveName types n) := by
  unfold resolveName
  split
  · exact .ok
  · exact .need

mutual
  theorem resolve_calm {types : Types} : ∀ {w : WTy}, Calm (resolve types w)
    | .any => by simp only [resolve]; exact .bail
    | .union => by simp only [resolve]; exact .bail
    | .boolean q => by simp only [resolve]; exact .ok
    | .identifier n q => by
      simp only [resolve]; exact .bind resolveName_calm fun _ => .ok
    | .integer q => by simp only [resolve]; exact .bail
    | .float u q => by simp only [resolve]; exact .ite .bail .ok
    | .double u q => by simp only [resolve]; exact .ite .bail .ok
    | .sequence inner q => by
      simp only [resolve]; exact .bind resolve_calm fun _ => .ok
    | .record key value q => by
      simp only [resolve]; exact .bind resolveKey_calm fun _ => .bind resolve_calm fun _ => .ok
    | .error q => by simp only [resolve]; exact .bail
    | .other s => by simp only [resolve]; exact .bail
  theorem resolveKey_calm {types : Types} : ∀ {w : WKey}, Calm (resolveKey types w)
    | .byte => by simp only [resolveKey]; exact .bail
    | .dom => by simp only [resolveKey]; exact .ok
    | .ty w => by simp only [resolveKey]; exact resolve_calm
end

theorem resolveAttributed_calm {types : Types} {ta : Bool} {w : WTy} :
    Calm (resolveAttributed types ta w) := .bind .check fun _ => resolve_calm

theorem resolveReturn_calm {types : Types} {w : WRet} : Calm (resolveReturn types w) := by
  unfold resolveReturn
  split
  · exact .ok
  · exact .ite .ok (.bind resolve_calm fun _ => .ok)
  · exact .bind resolve_calm fun _ => .ok

theorem addType_calm {types : Types} {n : String} {t : MTy} : Calm (addType types n t) := by
  unfold addType
  split
  · exact .ite .ok .bail
  · exact .ok

theorem typedefType_calm {m n k : String} : Calm (typedefType m n k) := by
  unfold typedefType
  repeat' first | apply Calm.ite | exact .ok | exact .bail

theorem findType_calm {crate : String} {types : Types} {d : Def} :
    Calm (findType crate types d) := by
  unfold findType
  split
  · exact .bind interfaceAttributes_calm fun _ =>
      .ite addType_calm (.bind (by unfold objectImpl; split <;> first | exact .ok | exact .bail)
        fun _ => addType_calm)
  · exact addType_calm
  · exact addType_calm
  · refine .bind typedefAttributes_calm fun _ => .ite ?_ ?_
    · exact .bind resolveAttributed_calm fun _ => addType_calm
    · split
      · exact .bind typedefType_calm fun _ => addType_calm
      · exact .bail
  · exact .bind .check fun _ => addType_calm
  · exact .ok

theorem findTypes_calm {crate : String} {types : Types} {ds : List Def} :
    Calm (findTypes crate types ds) := by
  induction ds generalizing types with
  | nil => exact .ok
  | cons d ds ih => exact .bind findType_calm fun _ => ih

theorem convertDefault_calm {l : Lit} {t : MTy} : Calm (convertDefault l t) := by
  induction t with
  | enum m n => simp only [convertDefault]; split <;> first | exact .ok | exact .bail
  | optional t ih =>
    simp only [convertDefault]
    split
    · exact .ok
    · exact .bind ih fun _ => .ok
  | _ => exact .bind .need fun _ => .ok

theorem optDefault_calm {l : Option Lit} {t : MTy} : Calm (optDefault l t) := by
  cases l
  · exact .ok
  · exact .bind convertDefault_calm fun _ => .ok

theorem argField_calm {types : Types} {a : WArg} : Calm (argField types a) := by
  cases a
  · exact .bind resolveAttributed_calm fun _ => .bind .check fun _ => .bind .check fun _ => .ok
  · exact .bail

theorem argParam_calm {types : Types} {a : WArg} : Calm (argParam types a) := by
  cases a
  · exact .bind resolveAttributed_calm fun _ => .bind optDefault_calm fun _ =>
      .bind argumentAttributes_calm fun _ => .ok
  · exact .bail

theorem throwsType_calm {types : Types} {attrs : List Attribute} :
    Calm (throwsType types attrs) := by
  unfold throwsType
  split
  · exact .ok
  · exact .bind .need fun _ => .ok

theorem convertFn_calm {crate : String} {types : Types} {m : WNsMember} :
    Calm (convertFn crate types m) := by
  cases m
  · exact .bind resolveReturn_calm fun _ => .bind .need fun _ =>
      .bind (optAttributes_calm fun _ => parseAttributes_calm) fun _ =>
      .bind throwsType_calm fun _ => .bind (.mapR fun _ => argParam_calm) fun _ =>
      .bind .check fun _ => .ok
  · exact .bail

theorem convertMethod_calm {crate : String} {types : Types} {o : WOp} :
    Calm (convertMethod crate types o) :=
  .bind .check fun _ => .bind .check fun _ => .bind resolveReturn_calm fun _ =>
    .bind (optAttributes_calm fun _ => parseAttributes_calm) fun _ =>
    .bind throwsType_calm fun _ => .bind .need fun _ => .bind .check fun _ =>
    .bind (.mapR fun _ => argParam_calm) fun _ => .bind .check fun _ => .ok

theorem convertVariant_calm {types : Types} {o : WOp} : Calm (convertVariant types o) :=
  .bind .check fun _ => .bind .check fun _ => .bind .check fun _ =>
    .bind (by unfold variantName; split <;> first | exact .ok | exact .bail) fun _ =>
    .bind (.mapR fun _ => argField_calm) fun _ => .ok

theorem convertField_calm {types : Types} {f : WField} : Calm (convertField types f) :=
  .bind .check fun _ => .bind resolve_calm fun _ => .bind optDefault_calm fun _ => .ok

theorem makeTraits_calm {crate self : String} {t : MTy} {names : List String} :
    Calm (makeTraits crate self t names) :=
  .mapR fun _ => .bind (by
    unfold makeTrait
    repeat' first | apply Calm.ite | exact .ok | exact .bail) fun _ => .ok

theorem convertVariants_calm {types : Types} {ms : List WMember} :
    Calm (convertVariants types ms) :=
  .mapR fun m => by
    cases m
    · exact .bail
    · exact convertVariant_calm
    · exact .bail

theorem convertCallbacks_calm {crate : String} {types : Types} {self : String} {i : Nat}
    {ms : List WMember} : Calm (convertCallbacks crate types self i ms) := by
  induction ms generalizing i with
  | nil => exact .ok
  | cons m ms ih =>
    cases m
    · exact .bail
    · exact .bind convertMethod_calm fun _ => .bind ih fun _ => .ok
    · exact .bail

/-- A constructor panics only when its error type is not defined. -/
theorem convertCtor_panic {crate : String} {types : Types} {c : WCtor}
    (h : convertCtor crate types c = .error .panic) :
    ∃ n, Allowed onConstructor c.attrs ∧ FirstIs c.attrs "Throws" n ∧ types.get n = none := by
  unfold convertCtor at h
  rcases panic_bind.1 h with h | ⟨attrs, ha, h⟩
  · exact absurd h (optAttributes_calm fun _ => parseAttributes_calm)
  · rw [constructorAttributes_ok] at ha
    rcases panic_bind.1 h with h | ⟨throws, -, h⟩
    · unfold ctorThrowsType at h
      split at h
      · simp at h
      · rename_i n hn
        split at h
        · simp at h
        · rename_i hg
          exact ⟨n, ha.1, (ha.2.throws n).1 hn, hg⟩
    · rcases panic_bind.1 h with h | ⟨_, -, h⟩
      · exact absurd h (Calm.mapR fun _ => argParam_calm)
      · rcases panic_bind.1 h with h | ⟨_, -, h⟩
        · exact absurd h Calm.check
        · simp at h

theorem convertMembers_panic {crate : String} {types : Types} {self : String} {imp : Impl}
    {seen : List String} {ms : List WMember}
    (h : convertMembers crate types self imp seen ms = .error .panic) :
    ∃ c, .ctor c ∈ ms ∧ convertCtor crate types c = .error .panic := by
  induction ms generalizing seen with
  | nil => simp [convertMembers] at h
  | cons m ms ih =>
    cases m with
    | ctor c =>
      simp only [convertMembers] at h
      rcases panic_bind.1 h with h | ⟨f, -, h⟩
      · exact ⟨c, by simp, h⟩
      · rcases panic_bind.1 h with h | ⟨_, -, h⟩
        · exact absurd h Calm.check
        · rcases panic_bind.1 h with h | ⟨_, -, h⟩
          · exact absurd h Calm.check
          · rcases panic_bind.1 h with h | ⟨_, -, h⟩
            · obtain ⟨c', hc, hp⟩ := ih h
              exact ⟨c', by simp [hc], hp⟩
            · simp at h
    | op o =>
      simp only [convertMembers] at h
      rcases panic_bind.1 h with h | ⟨f, -, h⟩
      · exact absurd h convertMethod_calm
      · rcases panic_bind.1 h with h | ⟨_, -, h⟩
        · exact absurd h Calm.check
        · rcases panic_bind.1 h with h | ⟨_, -, h⟩
          · obtain ⟨c', hc, hp⟩ := ih h
            exact ⟨c', by simp [hc], hp⟩
          · simp at h
    | other => exact absurd h Calm.bail

theorem processDef_panic {crate ns : String} {types : Types} {d : Def}
    (h : processDef crate ns types d = .error .panic) :
    ∃ doc as n inh ms c, d = .interface doc as n inh ms ∧ ¬EnumLike as ∧ .ctor c ∈ ms ∧
      convertCtor crate types c = .error .panic := by
  cases d with
  | namespace_ doc as n ms =>
    exact absurd h (Calm.bind .check fun _ => .bind .check fun _ =>
      .bind (.mapR fun _ => convertFn_calm) fun _ => .ok)
  | enum_ doc as n vs =>
    exact absurd h (Calm.bind (optAttributes_calm fun _ => parseAttributes_calm) fun _ => .ok)
  | dictionary doc as n inh ms =>
    exact absurd h (Calm.bind (optAttributes_calm fun _ => parseAttributes_calm) fun _ =>
      .bind .check fun _ => .bind makeTraits_calm fun _ =>
      .bind (.mapR fun _ => convertField_calm) fun _ => .ok)
  | callback doc as n inh ms =>
    exact absurd h (Calm.bind .check fun _ => .bind .check fun _ =>
      .bind convertCallbacks_calm fun _ => .ok)
  | typedef as ta w n => simp [processDef] at h
  | other => exact absurd h Calm.bail
  | interface doc as n inh ms =>
    simp only [processDef] at h
    rcases panic_bind.1 h with h | ⟨attrs, ha, h⟩
    · exact absurd h interfaceAttributes_calm
    · rw [interfaceAttributes_ok] at ha
      split at h
      · exact absurd h (Calm.bind .check fun _ =>
          .bind (optAttributes_calm fun _ => parseAttributes_calm) fun _ =>
          .bind makeTraits_calm fun _ => .bind convertVariants_calm fun _ => .ok)
      · rename_i he
        unfold convertObject at h
        rcases panic_bind.1 h with h | ⟨_, -, h⟩
        · exact absurd h Calm.check
        · rcases panic_bind.1 h with h | ⟨_, -, h⟩
          · exact absurd h interfaceAttributes_calm
          · rcases panic_bind.1 h with h | ⟨_, -, h⟩
            · unfold objectImpl at h
              split at h <;> simp [bail] at h
            · rcases panic_bind.1 h with h | ⟨_, -, h⟩
              · obtain ⟨c, hc, hp⟩ := convertMembers_panic h
                exact ⟨doc, as, n, inh, ms, c, rfl,
                  fun h => he ((enumLike_iff ha.2).2 h), hc, hp⟩
              · exact absurd h (Calm.bind makeTraits_calm fun _ => .ok)

theorem processAll_panic {crate ns : String} {types : Types} {ds : List Def} {items : List UItem}
    (h : processAll crate ns types items ds = .error .panic) :
    ∃ d ∈ ds, processDef crate ns types d = .error .panic := by
  induction ds generalizing items with
  | nil => simp [processAll] at h
  | cons d ds ih =>
    simp only [processAll] at h
    rcases panic_bind.1 h with h | ⟨_, -, h⟩
    · exact ⟨d, by simp, h⟩
    · obtain ⟨e, he, hp⟩ := ih h
      exact ⟨e, by simp [he], hp⟩

theorem findNamespace_calm {file : List Def} : Calm (findNamespace file) := by
  induction file with
  | nil => exact .bail
  | cons d ds ih =>
    cases d
    · exact .ok
    all_goals exact ih

/-! Files with the same definitions. -/

theorem Known.mono {crate : String} {file file' : List Def} (hs : ∀ d ∈ file, d ∈ file')
    {n : String} {t : MTy} (hk : Known crate file n t) : Known crate file' n t := by
  refine Known.rec (crate := crate) (file := file)
    (motive_1 := fun n t _ => Known crate file' n t)
    (motive_2 := fun d n t _ => Introduces crate file' d n t)
    (motive_3 := fun w t _ => Means crate file' w t)
    (motive_4 := fun w t _ => KeyMeans crate file' w t)
    ?_ ?_ ?_ ?_ ?_ ?_ ?_ ?_ ?_ ?_ ?_ ?_ ?_ ?_ ?_ ?_ ?_ hk
  · intro d n t hd _ ih; exact .mk (hs d hd) ih
  · intros; exact .enum_
  · intros; exact .dictionary
  · intro doc as n inh ms he; exact .enumInterface he
  · intro doc as n inh ms imp he hi; exact .object he hi
  · intros; exact .callback
  · intro as ta k q n m t hc hm hk; exact .keyword hc hm hk
  · intro as w n m t hc hm _ ih; exact .custom hc hm ih
  · intro q; exact .boolean
  · intro q; exact .float
  · intro q; exact .double
  · intro n q t hb; exact .builtin hb
  · intro n q t hb _ ih; exact .named hb ih
  · intro w q t _ ih; exact .sequence ih
  · intro k v q kt vt _ _ ih1 ih2; exact .record ih1 ih2
  · exact .dom
  · intro w t _ ih; exact .ty ih

end Verif.Udl.File
