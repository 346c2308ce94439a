import Verif.Src.MacroSpec
import Verif.Meta.Spec
/-
Where the macros accept what the sources say, both give the same metadata.
-/
namespace Verif.Src
open Verif.Meta

theorem meaning_custom {d : DefSrc} {m n : String} {t : MTy} {v : MDef} (h : d.meaning (.custom m n t) = some v) :
    d.meaning t = some v := by
  cases d <;> cases t <;> first | exact h | (simp [DefSrc.meaning, defaultType, intMeaning] at h)

theorem default_agrees {d : DefSrc} {t : MTy} {v : MDef} (h : DefaultIs d t v) {v' : MDef} : d.meaning t = some v' → v' = v := by
  induction h generalizing v' with
  | default => intro h; cases h; rfl
  | emptySeq => intro h; cases h; rfl
  | optNone =>
    rename_i t
    intro h
    rw [DefSrc.meaning] at h
    split at h <;> cases h
    rfl
  | @optSome d t v _ ih =>
    intro h
    simp only [DefSrc.meaning, defaultType, Option.map_eq_some_iff] at h
    obtain ⟨w, hw, rfl⟩ := h
    rw [ih hw]
  | str => intro h; simpa [DefSrc.meaning, defaultType, eq_comm] using h
  | bool => intro h; cases h; rfl
  | float ht =>
    intro h
    rcases ht with rfl | rfl <;> simpa [DefSrc.meaning, defaultType, eq_comm] using h
  | int ht =>
    intro h
    rcases ht with rfl | rfl | rfl | rfl <;>
      · simp only [DefSrc.meaning, defaultType, intMeaning, Option.map_eq_some_iff] at h
        obtain ⟨w, hw, rfl⟩ := h
        split at hw <;> cases hw
        rfl
  | @uint n s t ht =>
    intro h
    rcases ht with rfl | rfl | rfl | rfl <;>
      · simp only [DefSrc.meaning, defaultType, intMeaning, Option.map_eq_some_iff] at h
        obtain ⟨w, hw, rfl⟩ := h
        split at hw
        · cases hw; rfl
        · first | cases hw | (split at hw; · rename_i h; omega
                              · cases hw)
  | @custom m n d t v hd ih =>
    intro h
    exact ih (meaning_custom h)

theorem optDefault_agrees {d : Option DefSrc} {t : MTy} {v w : Option MDef} (h : OptDefaultIs d t v)
    (hw : optMeaning (·.meaning t) d = some w) : w = v := by
  cases d with
  | none => cases hw; exact h.symm
  | some d =>
    obtain ⟨v, rfl, hv⟩ := h
    simp only [optMeaning, Option.map_eq_some_iff] at hw
    obtain ⟨u, hu, rfl⟩ := hw
    rw [default_agrees hv hu]

theorem docOf_agrees {metas : List Meta} (h : NotEmptyDoc metas) : docOf ((docText metas).getD "") = docText metas := by
  unfold NotEmptyDoc at h
  cases hd : docText metas with
  | none => rfl
  | some s =>
    rw [hd] at h
    exact if_neg fun he => h (congrArg some he)

/-- A list of sources for a list of metadata, whose meaning is that metadata. -/
theorem each_agrees {α β γ : Type} {R : α → β → Prop} {S : α → γ → Prop} {f : γ → Option β} :
    ∀ {as : List α} {bs : List β}, Each R as bs → (∀ a ∈ as, ∀ b, R a b → ∃ c, S a c ∧ ∀ b', f c = some b' → b' = b) →
      ∃ cs, Each S as cs ∧ ∀ bs', listMeaning f cs = some bs' → bs' = bs := by
  intro as bs h
  induction h with
  | nil => exact fun _ => ⟨[], .nil, fun _ h => by cases h; rfl⟩
  | @cons a b as bs hr _ ih =>
    intro hall
    obtain ⟨c, hc, hb⟩ := hall a (.head _) b hr
    obtain ⟨cs, hcs, hbs⟩ := ih fun a ha => hall a (.tail _ ha)
    refine ⟨c :: cs, .cons hc hcs, fun bs' h => ?_⟩
    simp only [listMeaning, Option.bind_eq_some_iff, Option.map_eq_some_iff] at h
    obtain ⟨b', hb', bs'', hbs', rfl⟩ := h
    rw [hb _ hb', hbs _ hbs']

theorem arg_agrees {ir : Ir} {p : RPath} {self : Option RTy} {as : List Meta} {a : SArg} {m : MArg} (h : ArgIs ir p self as a m)
    (hp : ∀ x ty, a = .typed x ty → Settled ir p ty) :
    ∃ src, ArgSeen ir p self as a src ∧ ∀ m', src.meaning = some m' → m' = m := by
  match a, h with
  | .typed (some x) ty, ⟨h1, h2, h3, h4⟩ =>
    obtain ⟨ht, hf, hn⟩ := hp _ _ rfl
    obtain ⟨t, hm, h3⟩ := h3 ht hf
    obtain ⟨r, hr, h5⟩ := h3 (hn t hm)
    refine ⟨⟨x.name, r, m.passBy, argDefault as x⟩, ⟨rfl, rfl, t, hm, hr⟩, fun m' h => ?_⟩
    simp only [ArgSrc.meaning, Option.map_eq_some_iff] at h
    obtain ⟨d, hd, rfl⟩ := h
    rw [← h5] at hd ⊢
    rw [optDefault_agrees h4 hd]
    cases m
    simp_all

theorem ret_agrees {ir : Ir} {p : RPath} {self : Option RTy} {output : Option Ty} {ok err : Option MTy}
    (h : ReturnIs ir p self output ok err) (hp : ∀ ty, output = some ty → Settled ir p ty) :
    ∃ r, RetSeen ir p self output r ∧ r.returns = ok ∧ r.throws = err := by
  cases output with
  | none => obtain ⟨rfl, rfl⟩ := h; exact ⟨.plain none, rfl, rfl, rfl⟩
  | some ty =>
    obtain ⟨ht, hf, hn⟩ := hp _ rfl
    obtain ⟨t, hm, h3⟩ := h ht hf
    obtain ⟨r, hr, rfl, rfl⟩ := h3 (hn t hm)
    exact ⟨r, ⟨t, hm, hr⟩, rfl, rfl⟩

theorem fn_agrees {ir : Ir} {p : RPath} {sa sr : Option RTy} {metas as : List Meta} {f : SFn Meta} {inputs : List SArg} {m : MFn}
    (h : FnIs ir p sa sr metas as f inputs m) (hi : ∀ x ty, SArg.typed x ty ∈ inputs → Settled ir p ty)
    (hp : ∀ ty, f.output = some ty → Settled ir p ty) (hd : NotEmptyDoc metas) (kind : FnKind) :
    ∃ src : FnSrc, FnSeen ir p sa sr metas as f inputs src ∧ src.kind = kind ∧ src.modulePath = m.modulePath ∧ src.name = m.name ∧
      src.origName = m.origName ∧ ∀ c m', src.meaning c = some m' → m' = { m with checksum := some c } := by
  obtain ⟨args, ha, hargs⟩ := each_agrees (S := ArgSeen ir p sa as) (f := ArgSrc.meaning) h.inputs
    fun a ha b hb => arg_agrees hb fun x ty he => hi x ty (he ▸ ha)
  obtain ⟨r, hr, h1, h2⟩ := ret_agrees h.ret hp
  refine ⟨⟨kind, m.modulePath, m.name, m.origName, f.isAsync, args, r, (docText metas).getD ""⟩,
    ⟨rfl, ha, hr, rfl⟩, rfl, rfl, rfl, rfl, fun c m' hm => ?_⟩
  simp only [FnSrc.meaning, Option.map_eq_some_iff] at hm
  obtain ⟨xs, hxs, rfl⟩ := hm
  rw [hargs _ hxs, h1, h2, docOf_agrees hd, ← h.docstring, ← h.isAsync]

theorem field_agrees {env : CompileEnv} {ir : Ir} {p : RPath} {f : SField Meta} {m : MField} (h : FieldIs env ir p f m)
    (hp : Settled ir p f.ty) (hd : FieldPlain env f) :
    ∃ src, FieldSeen env ir p f src ∧ ∀ m', src.meaning = some m' → m' = m := by
  obtain ⟨metas, ha, ht, hn, hdef, hdoc⟩ := h
  obtain ⟨h1, h2, h3⟩ := hp
  obtain ⟨t, hm, h4⟩ := ht h1 h2
  obtain ⟨r, hr, h5⟩ := h4 (h3 t hm)
  have hname : match f.ident with
      | some i => NameIs (textArg "name" (uniffiArgs metas)) i.name m.name m.origName
      | none => m.name = (textArg "name" (uniffiArgs metas)).getD "" ∧ m.origName = none := by
    have hu := hd.2
    unfold TupleUnnamed at hu
    cases hi : f.ident with
    | some i => rw [hi] at hn; exact hn
    | none =>
      rw [hi, hu hi metas ha] at hn
      rw [hu hi metas ha]
      exact hn
  refine ⟨⟨m.name, m.origName, r, fieldDefault (uniffiArgs metas), (docText metas).getD ""⟩,
    ⟨metas, ha, ⟨t, hm, hr⟩, hname, rfl, rfl⟩, fun m' h => ?_⟩
  simp only [FieldSrc.meaning, Option.map_eq_some_iff] at h
  obtain ⟨d, hd', rfl⟩ := h
  rw [← h5] at hd' ⊢
  rw [optDefault_agrees hdef hd', docOf_agrees (hd.1 metas ha), ← hdoc]

theorem fields_agree {env : CompileEnv} {ir : Ir} {p : RPath} {fs : List (SField Meta)} {ms : List MField}
    (h : FieldsAre env ir p fs ms) (hp : ∀ f ∈ fs, Settled ir p f.ty ∧ FieldPlain env f) :
    ∃ src, Each (FieldSeen env ir p) (fs.filter fun f => isActive env f.attrs) src ∧
      ∀ m', listMeaning FieldSrc.meaning src = some m' → m' = ms :=
  each_agrees h fun f hf _ hb => field_agrees hb (hp f (List.mem_filter.1 hf).1).1 (hp f (List.mem_filter.1 hf).1).2

theorem variant_agrees {env : CompileEnv} {ir : Ir} {p : RPath} {repr : Option MTy} {v : SVariant Meta} {m : MVariant}
    (h : VariantIs env ir p repr false v m) (hv : v.discr = none)
    (hp : ∀ f ∈ v.fields, Settled ir p f.ty ∧ FieldPlain env f) (hd : DocsNotEmpty env v.attrs) :
    ∃ src, VariantSeen env ir p v src ∧ ∀ m', src.meaning = some m' → m' = m := by
  obtain ⟨metas, ha, hn, hdis, hf, hdoc⟩ := h
  obtain ⟨fs, hfs, hfs'⟩ := fields_agree (show FieldsAre env ir p v.fields m.fields from hf) hp
  refine ⟨⟨m.name, m.origName, none, fs, (docText metas).getD ""⟩, ⟨metas, ha, hn, by rw [hv], hfs, rfl⟩, fun m' h => ?_⟩
  simp only [VariantSrc.meaning, Option.bind_eq_some_iff, Option.map_eq_some_iff] at h
  obtain ⟨d, hd', xs, hxs, rfl⟩ := h
  cases hd'
  have hnone : m.discr = none := by
    rw [hv] at hdis
    cases repr <;> exact hdis
  rw [hfs' _ hxs, docOf_agrees (hd metas ha), ← hdoc, ← hnone]

end Verif.Src
