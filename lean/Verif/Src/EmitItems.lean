import Verif.Src.EmitMain
namespace Verif.Src
open Verif.Meta

variable {ir : Ir}

theorem each_forall {α β γ : Type} {C : γ → Prop} {R : γ → α → β → Prop} {as : List α} {bs : List β}
    (h : Each (fun a b => ∀ s, C s → R s a b) as bs) (s : γ) (hs : C s) : Each (R s) as bs :=
  each_mono (fun _ _ h => h s hs) h

theorem each_mem {α β : Type} {R : α → β → Prop} {P : α → Prop} : ∀ {as : List α} {bs : List β}, (∀ a ∈ as, P a) →
    Each R as bs → Each (fun a b => P a ∧ R a b) as bs
  | _, _, _, .nil => .nil
  | _, _, hp, .cons h1 h2 => .cons ⟨hp _ (.head _), h1⟩ (each_mem (fun a ha => hp a (.tail _ ha)) h2)

/-! ### What is read of functions -/

theorem parseArgs_is : ∀ {inputs : List SArg} {args}, parseArgs inputs = .ok args →
    inputs = args.map fun a => .typed (some a.1) a.2
  | [], args, h => by cases h; rfl
  | .typed (some i) ty :: as, args, h => by
    rw [parseArgs] at h
    obtain ⟨args', h1, h⟩ := synBind h
    cases h
    rw [parseArgs_is h1]; rfl
  | .typed none _ :: _, _, h => nomatch h
  | .receiver _ :: _, _, h => nomatch h

/-- What a function is read as. -/
structure FnRead (docs as : List Meta) (f : SFn Meta) (inputs : List SArg) (pf : PFn) : Prop where
  isAsync : pf.isAsync = f.isAsync
  ident : pf.ident = f.ident
  output : pf.output = f.output
  inputs : inputs = pf.args.map fun a => .typed (some a.1) a.2
  docstring : pf.attrs.docstring = docText docs
  name : pf.attrs.name = textArg "name" as
  defaults : ∀ x, pf.attrs.defaults.lookup x = argDefault as x

theorem parseFn_read {own : Meta → Bool} {metas : List Meta} {a : FnAttrs} {f : SFn Meta} {pf : PFn}
    (ha : fnAttrs own metas {} = .ok a) (h : parseFn a f = .ok pf) :
    FnRead (metas.filter fun m => !own m) (argsIn own metas) f f.inputs pf := by
  obtain ⟨h1, h2, h3⟩ := fnAttrs_is own ha
  obtain ⟨args, hargs, h⟩ := synBind h
  cases h
  refine ⟨rfl, rfl, rfl, parseArgs_is hargs, ?_, ?_, fun x => ?_⟩
  · rw [h1, docs_filter, docs_text]
  · rw [h2]; simp
  · rw [h3]; simp

theorem docText_own {name : String} (ms : List Meta) :
    docText (ms.filter fun m => !isAttr name m) = docText ms := by
  unfold docText
  suffices (ms.filter fun m => !isAttr name m).filterMap docLine = ms.filterMap docLine by rw [this]
  induction ms with
  | nil => rfl
  | cons m ms ih =>
    rw [List.filter_cons, List.filterMap_cons]
    by_cases h : isAttr name m = true
    · have : docLine m = none := by
        unfold docLine
        split
        · rename_i p s
          have : p.isIdent "doc" = false := by
            unfold Path.isIdent
            rw [beq_eq_false_iff_ne]
            rintro rfl
            exact nomatch h
          rw [this]; rfl
        · rfl
      rw [if_neg (by simp [h]), ih, this]
    · rw [if_pos (by simp [h]), List.filterMap_cons, ih]

theorem FnRead.own {name : String} {metas as : List Meta} {f : SFn Meta} {inputs : List SArg} {pf : PFn}
    (h : FnRead (metas.filter fun m => !isAttr name m) as f inputs pf) : FnRead metas as f inputs pf :=
  { h with docstring := by rw [h.docstring, docText_own] }

/-- What a method is read as. -/
def MethodRead (env : CompileEnv) (f : SFn Meta) (pm : PMethod) : Prop :=
  ∃ metas inputs, Active env f.attrs metas ∧ f.inputs = .receiver pm.receiver :: inputs ∧
    FnRead metas (argsIn (isAttr "method") metas) f inputs pm.fn

theorem parseMethod_read {env : CompileEnv} {metas : List Meta} {a : FnAttrs} {f : SFn Meta} {pm : PMethod}
    (hm : Active env f.attrs metas) (ha : fnAttrs (isAttr "method") metas {} = .ok a)
    (h : parseMethod a f = .ok pm) : MethodRead env f pm := by
  unfold parseMethod at h
  split at h
  · rename_i ty rest hi
    obtain ⟨pf, hpf, h⟩ := synBind h
    cases h
    have := (parseFn_read ha hpf).own
    exact ⟨metas, rest, hm, hi, { this with }⟩
  · exact nomatch h

/-- What a constructor is read as. -/
def ConsRead (env : CompileEnv) (f : SFn Meta) (pf : PFn) : Prop :=
  ∃ metas, Active env f.attrs metas ∧ FnRead metas (argsIn (isAttr "constructor") metas) f f.inputs pf

theorem parseMethodAttrs_ok {env : CompileEnv} {attrs : List Meta} {r} (h : parseMethodAttrs env attrs = .ok r) :
    (r = none ∧ env.parseAttrs attrs = .ok none) ∨
    ∃ metas a, r = some a ∧ env.parseAttrs attrs = .ok (some metas) ∧ fnAttrs (isAttr "method") metas {} = .ok a := by
  unfold parseMethodAttrs at h
  obtain ⟨o, ho, h⟩ := synBind h
  cases o with
  | none => cases h; exact .inl ⟨rfl, ho⟩
  | some metas =>
    obtain ⟨a, ha, h⟩ := synBind h
    cases h
    rw [isUniffiAttr_fun] at ha
    exact .inr ⟨metas, a, rfl, ho, ha⟩

theorem parseConsAttrs_ok {env : CompileEnv} {attrs : List Meta} {r} (h : parseConsAttrs env attrs = .ok r) :
    (r = none ∧ env.parseAttrs attrs = .ok none) ∨
    ∃ metas, env.parseAttrs attrs = .ok (some metas) ∧
      ((r = none ∧ metas.any (isAttr "constructor") = false) ∨
       ∃ a, r = some a ∧ metas.any (isAttr "constructor") = true ∧
        fnAttrs (isAttr "constructor") metas {} = .ok a) := by
  unfold parseConsAttrs at h
  obtain ⟨o, ho, h⟩ := synBind h
  cases o with
  | none => cases h; exact .inl ⟨rfl, ho⟩
  | some metas =>
    refine .inr ⟨metas, ho, ?_⟩
    dsimp only at h
    simp only [isUniffiAttr_fun] at h
    split at h
    · rename_i hc
      obtain ⟨a, ha, h⟩ := synBind h
      cases h
      exact .inr ⟨a, rfl, hc, ha⟩
    · rename_i hc
      cases h
      exact .inl ⟨rfl, by simpa using hc⟩

theorem isActive_some {env : CompileEnv} {attrs metas : List Meta} (h : env.parseAttrs attrs = .ok (some metas)) :
    isActive env attrs = true := by unfold isActive; rw [h]
theorem isActive_none {env : CompileEnv} {attrs : List Meta} (h : env.parseAttrs attrs = .ok none) :
    isActive env attrs = false := by unfold isActive; rw [h]
theorem isCons_some {env : CompileEnv} {f : SFn Meta} {metas : List Meta} (h : env.parseAttrs f.attrs = .ok (some metas)) :
    isCons env f = metas.any (isAttr "constructor") := by unfold isCons; rw [h]
theorem isCons_none {env : CompileEnv} {f : SFn Meta} (h : env.parseAttrs f.attrs = .ok none) :
    isCons env f = false := by unfold isCons; rw [h]

theorem parseMethods_read {env : CompileEnv} : ∀ {fs : List (SFn Meta)} {ms}, parseMethods env fs = .ok ms →
    Each (MethodRead env) (fs.filter fun f => isActive env f.attrs) ms
  | [], ms, h => by cases h; exact .nil
  | f :: fs, ms, h => by
    rw [parseMethods] at h
    obtain ⟨o, ho, h⟩ := synBind h
    rcases parseMethodAttrs_ok ho with ⟨rfl, hn⟩ | ⟨metas, a, rfl, hm, ha⟩
    · rw [List.filter_cons, if_neg (by rw [isActive_none hn]; exact nofun)]
      exact parseMethods_read h
    · rw [List.filter_cons, if_pos (isActive_some hm)]
      obtain ⟨m, h1, h⟩ := synBind h
      obtain ⟨ms', h2, h⟩ := synBind h
      cases h
      exact .cons (parseMethod_read hm ha h1) (parseMethods_read h2)

theorem parseImplFns_read {env : CompileEnv} : ∀ {fs : List (SFn Meta)} {cs ms}, parseImplFns env fs = .ok (cs, ms) →
    Each (ConsRead env) (fs.filter (isCons env)) cs ∧
    Each (MethodRead env) (fs.filter fun f => isActive env f.attrs && !isCons env f) ms
  | [], cs, ms, h => by cases h; exact ⟨.nil, .nil⟩
  | f :: fs, cs, ms, h => by
    rw [parseImplFns] at h
    obtain ⟨o, ho, h⟩ := synBind h
    rw [List.filter_cons, List.filter_cons]
    have rest : isCons env f = false → (do
          match ← parseMethodAttrs env f.attrs with
          | some a => do
            let m ← parseMethod a f
            let (cs, ms) ← parseImplFns env fs
            .ok (cs, m :: ms)
          | none => parseImplFns env fs : SynRes (List PFn × List PMethod)) = .ok (cs, ms) →
        Each (ConsRead env) (if isCons env f = true then f :: fs.filter (isCons env) else fs.filter (isCons env)) cs ∧
        Each (MethodRead env) (if (isActive env f.attrs && !isCons env f) = true then
          f :: fs.filter (fun f => isActive env f.attrs && !isCons env f)
          else fs.filter fun f => isActive env f.attrs && !isCons env f) ms := by
      intro hc h
      obtain ⟨o, ho, h⟩ := synBind h
      rw [hc, if_neg nofun]
      rcases parseMethodAttrs_ok ho with ⟨rfl, hn⟩ | ⟨metas, a, rfl, hm, ha⟩
      · rw [if_neg (by rw [isActive_none hn]; exact nofun)]
        exact parseImplFns_read h
      · rw [if_pos (by rw [isActive_some hm]; rfl)]
        obtain ⟨m, h1, h⟩ := synBind h
        obtain ⟨⟨cs', ms'⟩, h2, h⟩ := synBind h
        cases h
        have := parseImplFns_read h2
        exact ⟨this.1, .cons (parseMethod_read hm ha h1) this.2⟩
    rcases parseConsAttrs_ok ho with ⟨rfl, hn⟩ | ⟨metas, hm, ⟨rfl, hn⟩ | ⟨a, rfl, hc, ha⟩⟩
    · exact rest (isCons_none hn) h
    · exact rest (by rw [isCons_some hm, hn]) h
    · rw [if_pos (by rw [isCons_some hm, hc]), if_neg (by rw [isCons_some hm, hc]; simp)]
      obtain ⟨c, h1, h⟩ := synBind h
      obtain ⟨⟨cs', ms'⟩, h2, h⟩ := synBind h
      cases h
      have := parseImplFns_read h2
      exact ⟨.cons ⟨metas, hm, (parseFn_read ha h1).own⟩ this.1, this.2⟩

/-! ### What is read of types -/

/-- What a field is read as. -/
def FieldRead (env : CompileEnv) (f : SField Meta) (pf : PField) : Prop :=
  ∃ metas, Active env f.attrs metas ∧ pf.ident = f.ident ∧ pf.ty = f.ty ∧ pf.attrs.docstring = docText metas ∧
    pf.attrs.name = textArg "name" (uniffiArgs metas) ∧ pf.attrs.default = fieldDefault (uniffiArgs metas)

theorem parseFields_read {env : CompileEnv} : ∀ {fs : List (SField Meta)} {ms}, parseFields env fs = .ok ms →
    Each (FieldRead env) (fs.filter fun f => isActive env f.attrs) ms
  | [], ms, h => by cases h; exact .nil
  | f :: fs, ms, h => by
    rw [parseFields] at h
    obtain ⟨o, ho, h⟩ := synBind h
    unfold parseFieldAttrs at ho
    obtain ⟨o', hm, ho⟩ := synBind ho
    cases o' with
    | none =>
      cases ho
      rw [List.filter_cons, if_neg (by rw [isActive_none hm]; exact nofun)]
      exact parseFields_read h
    | some metas =>
      obtain ⟨a, ha, ho⟩ := synBind ho
      cases ho
      obtain ⟨ms', h2, h⟩ := synBind h
      cases h
      obtain ⟨i1, i2, i3⟩ := fieldAttrs_is ha
      rw [List.filter_cons, if_pos (isActive_some hm)]
      refine .cons ⟨metas, hm, rfl, rfl, ?_, ?_, ?_⟩ (parseFields_read h2)
      · rw [i1, docs_text]
      · rw [i2]; simp
      · rw [i3]; simp

/-- What a variant is read as. -/
def VariantRead (env : CompileEnv) (repr : Option MTy) (v : SVariant Meta) (pv : PVariant) : Prop :=
  ∃ metas, Active env v.attrs metas ∧ pv.ident = v.ident ∧ pv.attrs.docstring = docText metas ∧
    pv.attrs.name = textArg "name" (uniffiArgs metas) ∧ DiscrIs repr v.discr pv.discr ∧
    Each (FieldRead env) (v.fields.filter fun f => isActive env f.attrs) pv.fields

theorem parseDiscr_is {repr : Option MTy} {d : Option SDiscr} {l : Option MLit} (h : parseDiscr repr d = .ok l) :
    DiscrIs repr d l := by
  unfold parseDiscr at h
  split at h
  · cases h; cases repr <;> rfl
  · rename_i d
    split at h
    · cases h; cases d <;> rfl
    · rename_i t
      split at h
      · rename_i n
        split at h
        · rename_i hs
          split at h
          · cases h; simp only [DiscrIs, if_pos (signed_iff.1 hs)]
          · exact nomatch h
        · rename_i hs
          split at h
          · cases h; simp only [DiscrIs, if_neg (fun hm => hs (signed_iff.2 hm))]
          · exact nomatch h
      · rename_i n
        split at h
        · rename_i hs
          cases h
          simp only [Bool.and_eq_true] at hs
          exact ⟨signed_iff.1 hs.1, rfl⟩
        · exact nomatch h
      · exact nomatch h

theorem parseVariants_read {env : CompileEnv} {repr : Option MTy} : ∀ {vs : List (SVariant Meta)} {ms},
    parseVariants env repr vs = .ok ms → Each (VariantRead env repr) (vs.filter fun v => isActive env v.attrs) ms
  | [], ms, h => by cases h; exact .nil
  | v :: vs, ms, h => by
    rw [parseVariants] at h
    obtain ⟨o, ho, h⟩ := synBind h
    unfold parseVariantAttrs at ho
    obtain ⟨o', hm, ho⟩ := synBind ho
    cases o' with
    | none =>
      cases ho
      rw [List.filter_cons, if_neg (by rw [isActive_none hm]; exact nofun)]
      exact parseVariants_read h
    | some metas =>
      obtain ⟨a, ha, ho⟩ := synBind ho
      cases ho
      obtain ⟨d, hd, h⟩ := synBind h
      obtain ⟨fs, hfs, h⟩ := synBind h
      obtain ⟨ms', h2, h⟩ := synBind h
      cases h
      obtain ⟨i1, i2⟩ := variantAttrs_is ha
      rw [List.filter_cons, if_pos (isActive_some hm)]
      refine .cons ⟨metas, hm, rfl, ?_, ?_, parseDiscr_is hd, parseFields_read hfs⟩ (parseVariants_read h2)
      · rw [i1, docs_text]
      · rw [i2]; simp

/-! ### Metadata of the parts -/

theorem each_comp {α β γ : Type} {R : α → β → Prop} {S : β → γ → Prop} : ∀ {as : List α} {bs : List β} {cs : List γ},
    Each R as bs → Each S bs cs → Each (fun a c => ∃ b, R a b ∧ S b c) as cs
  | _, _, _, .nil, .nil => .nil
  | _, _, _, .cons h1 h2, .cons h3 h4 => .cons ⟨_, h1, h3⟩ (each_comp h2 h4)

theorem gives_each {α β γ : Type} {f : β → M γ} {R : α → β → Prop} {S : α → γ → Prop}
    (hf : ∀ a b, R a b → Gives ir (f b) (S a)) {as : List α} {bs : List β} (h : Each R as bs) :
    Gives ir (M.all f bs) (Each S as) := by
  induction h with
  | nil => exact sat_pure .nil
  | cons h1 _ ih => exact sat_bind (hf _ _ h1) fun _ h => sat_bind ih fun _ hs => sat_pure (.cons h hs)

section
variable (hu : ir.Unique) (hr : ir.RootsModules) (ho : ir.OnlyPaths) {n : Nat} {p : RPath} (hp : Canon ir p)
include hu hr ho

theorem publicPath_place {id k ident vis attr remote} (hq : Canon ir (p ++ [.decl id k ident vis attr remote]))
    (hk : k.exportable = true)
    {name : Option String} (hn : (Item.decl id k ident vis attr remote).nameFromAttrs = name) :
    Gives ir (M.publicPath ir (p ++ [.decl id k ident vis attr remote]))
      (fun m => PlaceIs ir (p ++ [.decl id k ident vis attr remote]) name ident m.modulePath m.name m.origName) := by
  have hd := canon_isDecl hr hq List.getLast?_concat hk
  intro c hc
  refine ⟨.publicPath hc hq hd, fun m hm => ?_, fun _ _ => trivial⟩
  obtain ⟨r, hr, hc'⟩ := publicPathTop_ok hu hq hc (ho _ hq hd)
  have hm : (publicPathTop ir _ c).1 = .ok m := hm
  rw [hm] at hc'
  rcases hc' with rfl | ⟨_, _, h'⟩
  · obtain ⟨t, mp, h1, h2, h3, h4, ⟨i, h5, h6⟩, h7⟩ := hr.found m rfl
    refine ⟨t, mp, h1, h2, h3, h4, ?_, ?_⟩
    · rw [List.getLast?_concat] at h1
      cases h1
      cases h5
      rw [h6, hn]; rfl
    · rw [ItemNames.importName] at h7
      cases ho : m.origName <;> rw [ho] at h7 <;> exact h7
  · exact nomatch h'

include hp

theorem argMetadata_gives {ds : List (Ident × DefSrc)} {as : List Meta} (hd : ∀ x, ds.lookup x = argDefault as x)
    {self : Option MTy} {a : Ident × Ty} : Gives ir (argMetadata ir n p ds self a) (fun m =>
      ∀ sr : Option RTy, self = sr.map RTy.toMeta ∧ sr ≠ some .u8 → ArgIs ir p sr as (.typed (some a.1) a.2) m) := by
  refine sat_bind (resolveArgType_gives hu hr ho hp) fun r hr => sat_bind (gives_ofRes fun d hd => optDefault_is hd)
    fun d hdef => sat_pure fun sr hs => ⟨rfl, rfl, hr sr hs.1 hs.2, ?_⟩
  rw [hd] at hdef
  exact hdef

theorem args_gives {ds : List (Ident × DefSrc)} {as : List Meta} (hd : ∀ x, ds.lookup x = argDefault as x)
    {self : Option MTy} {args : List (Ident × Ty)} : Gives ir (M.all (argMetadata ir n p ds self) args) (fun ms =>
      ∀ sr : Option RTy, self = sr.map RTy.toMeta → sr ≠ some .u8 →
        Each (ArgIs ir p sr as) (args.map fun a => .typed (some a.1) a.2) ms) :=
  sat_mono (gives_all fun a _ => argMetadata_gives hu hr ho hp hd) fun _ h sr h1 h2 => each_map (each_forall h sr ⟨h1, h2⟩)

theorem fnMetadata_gives {id vis} {pf : PFn} {docs as : List Meta} {f : SFn Meta} (hf : FnRead docs as f f.inputs pf)
    (hq : Canon ir (p ++ [(PItem.fn id vis pf).erase])) :
    Gives ir (fnMetadata ir n (p ++ [(PItem.fn id vis pf).erase]) pf) (fun o => ∃ m, o = .data false (.func m) ∧
      FnIs ir p none none docs as f f.inputs m ∧
      PlaceIs ir (p ++ [.decl id .fn f.ident vis (textArg "name" as) false]) (textArg "name" as) f.ident m.modulePath m.name
        m.origName) := by
  rw [PItem.erase] at hq ⊢
  unfold fnMetadata
  rw [parent_concat (canon_ne hp), ofRes_bind]
  rw [← hf.name, ← hf.ident]
  refine sat_bind (publicPath_place hu hr ho hq rfl rfl) fun names hnames =>
    sat_bind (returnMetadata_gives hu hr ho hp) fun ret hret =>
    sat_bind (args_gives hu hr ho hp hf.defaults) fun args hargs => sat_pure ⟨_, rfl, ⟨hf.isAsync, ?_, ?_, hf.docstring, rfl⟩, hnames⟩
  · rw [hf.inputs]; exact hargs none rfl nofun
  · rw [← hf.output]; exact hret none rfl nofun

theorem consMetadata_gives {env : CompileEnv} {selfName : String} {selfTy : MTy} {f : SFn Meta} {pf : PFn}
    (hf : ConsRead env f pf) : Gives ir (consMetadata ir n p selfName selfTy pf) (fun o =>
      ∀ r : RTy, selfTy = r.toMeta ∧ r ≠ .u8 → ∃ c, o = .data false (.constructor c) ∧ ConsIs env ir p r f selfName c) := by
  obtain ⟨metas, ha, hf⟩ := hf
  refine sat_bind (returnMetadata_gives hu hr ho hp) fun ret hret => ?_
  split
  · rename_i hs
    refine sat_bind (args_gives hu hr ho hp hf.defaults) fun args hargs => sat_pure fun r hr => ⟨_, rfl, metas, _,
      ⟨pathString p, (namePair pf.attrs.name pf.ident.name).1, (namePair pf.attrs.name pf.ident.name).2, pf.isAsync, args,
        ret.1, ret.2, none, pf.attrs.docstring⟩, ha, rfl, ⟨hf.isAsync, ?_, ?_, hf.docstring, rfl⟩, ?_, rfl, ?_, rfl⟩
    · rw [hf.inputs]; exact hargs none rfl nofun
    · rw [← hf.output]; exact hret (some r) (by rw [hr.1]; rfl) (by simpa using hr.2)
    · dsimp only; rw [hs, hr.1]
    · rw [← hf.name, ← hf.ident]; exact namePair_is
  · exact sat_fail trivial

theorem methodParts_gives {env : CompileEnv} {selfTy : MTy} {f : SFn Meta} {pm : PMethod} (hf : MethodRead env f pm) :
    Gives ir (methodParts ir n p selfTy pm) (fun o =>
      ∀ r : RTy, selfTy = r.toMeta ∧ r ≠ .u8 → MethodIs env ir p r f o.1 o.2) := by
  obtain ⟨metas, inputs, ha, hi, hf⟩ := hf
  refine sat_bind (returnMetadata_gives hu hr ho hp) fun ret hret => sat_bind (resolveSelf_gives hu hr ho hp) fun arc harc =>
    sat_bind (args_gives hu hr ho hp hf.defaults) fun args hargs => sat_pure fun r hr =>
      ⟨metas, _, _, inputs, ha, rfl, hi, harc, ⟨hf.isAsync, ?_, ?_, hf.docstring, rfl⟩, rfl, ?_⟩
  · rw [hf.inputs]; exact hargs (some r) (by rw [hr.1]; rfl) (by simpa using hr.2)
  · rw [← hf.output]; exact hret (some r) (by rw [hr.1]; rfl) (by simpa using hr.2)
  · rw [← hf.name, ← hf.ident]; exact namePair_is

theorem traitMethods_gives {env : CompileEnv} {name : String} {r : RTy} (h8 : r ≠ .u8) :
    ∀ {fs : List (SFn Meta)} {pms : List PMethod} {i : Nat}, Each (MethodRead env) fs pms →
      Gives ir (traitMethods ir n p name r.toMeta i pms) (fun os =>
        Each (fun (f : SFn Meta × Nat) o => ∃ byArc fn, o = .data byArc (.traitMethod name (UInt32.ofNat f.2) fn) ∧
          MethodIs env ir p r f.1 byArc fn) (fs.zipIdx i) os)
  | _, _, _, .nil => sat_pure .nil
  | _, _, _, .cons h1 h2 =>
    sat_bind (methodParts_gives hu hr ho hp h1) fun o hm => sat_bind (traitMethods_gives h8 h2) fun _ hos =>
      sat_pure (.cons ⟨o.1, o.2, rfl, hm r ⟨rfl, h8⟩⟩ hos)

theorem fieldMetadata_gives {env : CompileEnv} {f : SField Meta} {pf : PField} (hf : FieldRead env f pf) :
    Gives ir (fieldMetadata ir n p pf) (FieldIs env ir p f) := by
  obtain ⟨metas, ha, h1, h2, h3, h4, h5⟩ := hf
  refine sat_bind (resolveMeta_gives hu hr ho hp) fun ty hty => sat_bind (gives_ofRes fun d hd => optDefault_is hd)
    fun d hd => sat_pure ⟨metas, ha, by rw [← h2]; exact hty, ?_, by rw [← h5]; exact hd, h3⟩
  rw [← h4, ← h1]; exact namePair_is

theorem fields_gives {env : CompileEnv} {fs : List (SField Meta)} {pfs : List PField}
    (hf : Each (FieldRead env) (fs.filter fun f => isActive env f.attrs) pfs) :
    Gives ir (M.all (fieldMetadata ir n p) pfs) (FieldsAre env ir p fs) := by
  exact gives_each (fun _ _ h => fieldMetadata_gives hu hr ho hp h) hf

theorem variantMetadata_gives {env : CompileEnv} {repr : Option MTy} {flat : Bool} {v : SVariant Meta} {pv : PVariant}
    (hv : VariantRead env repr v pv) : Gives ir (variantMetadata ir n p flat pv) (VariantIs env ir p repr flat v) := by
  obtain ⟨metas, ha, h1, h2, h3, h4, h5⟩ := hv
  have key : Gives ir (if flat then .pure [] else M.all (fieldMetadata ir n p) pv.fields)
      (fun fs => if flat then fs = [] else FieldsAre env ir p v.fields fs) := by
    cases flat with
    | true => exact sat_pure rfl
    | false => exact fields_gives hu hr ho hp h5
  refine sat_bind key fun fs hfs => sat_pure ⟨metas, ha, ?_, h4, hfs, h2⟩
  rw [← h3, ← h1]; exact namePair_is


/-! ### Metadata of items -/

omit hu hr ho hp in
theorem utraits_are {l : Look} {metas : List Meta} {t : UTraits} (h : parseUTraits l metas {} = .ok t) {selfName : String}
    {selfTy : MTy} : BuiltinTraits l metas p selfName selfTy (utraitMetadata t p selfName selfTy) := by
  obtain ⟨h1, h2, h3, h4, h5⟩ := parseUTraits_is l h
  rw [show ({} : UTraits).debug = false from rfl, Bool.false_or] at h1
  rw [show ({} : UTraits).display = false from rfl, Bool.false_or] at h2
  rw [show ({} : UTraits).eq = false from rfl, Bool.false_or] at h3
  rw [show ({} : UTraits).hash = false from rfl, Bool.false_or] at h4
  rw [show ({} : UTraits).ord = false from rfl, Bool.false_or] at h5
  intro o
  unfold utraitMetadata utraitMethod
  rw [h1, h2, h3, h4, h5]
  simp only [List.mem_append]
  have key : ∀ (b : Bool) (l : List Out), (o ∈ if b = true then l else []) ↔ b = true ∧ o ∈ l := by
    intro b l; cases b <;> simp
  simp only [key, List.mem_singleton]
  constructor
  · rintro ((((⟨hb, rfl⟩ | ⟨hb, rfl⟩) | ⟨hb, rfl⟩) | ⟨hb, rfl⟩) | ⟨hb, rfl⟩)
    · exact ⟨_, rfl, .inl ⟨hb, rfl⟩⟩
    · exact ⟨_, rfl, .inr (.inl ⟨hb, rfl⟩)⟩
    · exact ⟨_, rfl, .inr (.inr (.inl ⟨hb, rfl⟩))⟩
    · exact ⟨_, rfl, .inr (.inr (.inr (.inl ⟨hb, rfl⟩)))⟩
    · exact ⟨_, rfl, .inr (.inr (.inr (.inr ⟨hb, rfl⟩)))⟩
  · rintro ⟨t, rfl, ⟨hb, rfl⟩ | ⟨hb, rfl⟩ | ⟨hb, rfl⟩ | ⟨hb, rfl⟩ | ⟨hb, rfl⟩⟩
    · exact .inl (.inl (.inl (.inl ⟨hb, rfl⟩)))
    · exact .inl (.inl (.inl (.inr ⟨hb, rfl⟩)))
    · exact .inl (.inl (.inr ⟨hb, rfl⟩))
    · exact .inl (.inr ⟨hb, rfl⟩)
    · exact .inr ⟨hb, rfl⟩

/-- What the attributes of a record or an object are read as. -/
structure TypeRead (l : Look) (metas : List Meta) (remote : Bool) (a : TypeAttrs) : Prop where
  docstring : a.docstring = docText metas
  name : a.name = textArg "name" (uniffiArgs metas)
  remote : a.remote = remote
  utraits : parseUTraits l metas {} = .ok a.utraits

omit hu hr ho hp in
theorem typeAttrs_read {l : Look} {metas : List Meta} {remote : Bool} {t : UTraits} {a : TypeAttrs}
    (ht : parseUTraits l metas {} = .ok t) (h : typeAttrs metas { remote := remote, utraits := t } = .ok a) :
    TypeRead l metas remote a := by
  obtain ⟨h1, h2, h3, h4⟩ := typeAttrs_is h
  exact ⟨by rw [h1, docs_text], by rw [h2]; simp, h3, by rw [h4]; exact ht⟩

theorem recordMetadata_gives {env : CompileEnv} {l : Look} {metas : List Meta} {remote : Bool} {a : TypeAttrs} {id vis ident}
    {fields : List (SField Meta)} {pfs : List PField} (ha : TypeRead l metas remote a) (hf : parseFields env fields = .ok pfs)
    (hq : Canon ir (p ++ [(PItem.record id a vis ident pfs).erase])) :
    Gives ir (recordMetadata ir n p (p ++ [(PItem.record id a vis ident pfs).erase]) a pfs)
      (RecordIs env l ir p id vis ident fields metas remote) := by
  rw [PItem.erase] at hq ⊢
  unfold recordMetadata
  simp only [parent_concat (canon_ne hp), ofRes_bind]
  unfold RecordIs
  rw [← ha.name, ← ha.remote, ← ha.docstring]
  exact sat_bind (publicPath_place hu hr ho hq rfl rfl) fun names hnames =>
    sat_bind (fields_gives hu hr ho hp (parseFields_read hf)) fun fs hfs =>
    sat_pure ⟨_, _, _, _, _, rfl, hnames, hfs, utraits_are ha.utraits⟩

theorem objectMetadata_gives {l : Look} {metas : List Meta} {remote : Bool} {a : TypeAttrs} {id vis ident}
    (ha : TypeRead l metas remote a) (hq : Canon ir (p ++ [(PItem.object id a vis ident).erase])) :
    Gives ir (objectMetadata ir p (p ++ [(PItem.object id a vis ident).erase]) a)
      (ObjectIs l ir p id vis ident metas remote) := by
  rw [PItem.erase] at hq ⊢
  unfold objectMetadata ObjectIs
  rw [← ha.name, ← ha.remote, ← ha.docstring]
  exact sat_bind (publicPath_place hu hr ho hq rfl rfl) fun names hnames =>
    sat_pure ⟨_, _, _, _, rfl, hnames, utraits_are ha.utraits⟩

/-- What the attributes of an enum are read as. -/
structure EnumRead (l : Look) (metas : List Meta) (shape : Shape) (remote : Bool) (a : EnumAttrs) : Prop where
  docstring : a.docstring = docText metas
  name : a.name = textArg "name" (uniffiArgs metas)
  remote : a.remote = remote
  utraits : parseUTraits l metas {} = .ok a.utraits
  shape : a.shape = shape
  nonExhaustive : a.nonExhaustive = wordArg "non_exhaustive" metas
  discrType : a.discrType = reprOf metas

omit hu hr ho hp in
theorem enumAttrs_read {l : Look} {metas : List Meta} {shape : Shape} {remote : Bool} {t : UTraits} {a : EnumAttrs}
    (ht : parseUTraits l metas {} = .ok t) (h : enumAttrs metas { shape := shape, remote := remote, utraits := t } = .ok a) :
    EnumRead l metas (shapeWith shape (wordArg "flat_error" (uniffiArgs metas))) remote a := by
  obtain ⟨h1, h2, h3, h4, h5, h6, h7⟩ := enumAttrs_is h
  exact ⟨by rw [h1, docs_text], by rw [h2]; simp, h3, by rw [h4]; exact ht, h5, by rw [h6]; simp, by rw [h7]; simp⟩

theorem enumMetadata_gives {env : CompileEnv} {l : Look} {metas : List Meta} {shape : Shape} {remote : Bool} {a : EnumAttrs}
    {id vis ident} {variants : List (SVariant Meta)} {pvs : List PVariant} (ha : EnumRead l metas shape remote a)
    (hv : parseVariants env a.discrType variants = .ok pvs)
    (hq : Canon ir (p ++ [(PItem.enum id a vis ident pvs).erase])) :
    Gives ir (enumMetadata ir n p (p ++ [(PItem.enum id a vis ident pvs).erase]) a pvs)
      (EnumIs env l ir p id vis ident variants metas shape remote) := by
  rw [PItem.erase] at hq ⊢
  unfold enumMetadata
  simp only [parent_concat (canon_ne hp), ofRes_bind]
  unfold EnumIs
  rw [← ha.name, ← ha.remote, ← ha.docstring, ← ha.shape, ← ha.nonExhaustive, ← ha.discrType]
  exact sat_bind (publicPath_place hu hr ho hq rfl rfl) fun names hnames =>
    sat_bind (gives_each (fun _ _ h => variantMetadata_gives hu hr ho hp h) (parseVariants_read hv)) fun vs hvs =>
    sat_pure ⟨_, _, _, _, _, rfl, hnames, hvs, utraits_are ha.utraits⟩

theorem traitMetadata_gives {env : CompileEnv} {l : Look} {metas : List Meta} {a : TraitAttrs} {t : ExportTy} {id vis ident}
    {fns : List (SFn Meta)} {pms : List PMethod} (ha : traitAttrs l metas {} = .ok a) (ht : a.exportTy = some t)
    (hm : parseMethods env fns = .ok pms) (hq : Canon ir (p ++ [(PItem.trait id t a vis ident pms).erase])) :
    Gives ir (traitMetadata ir n (p ++ [(PItem.trait id t a vis ident pms).erase]) t a.docstring pms)
      (TraitIs env l ir p id vis ident fns metas) := by
  obtain ⟨h1, h2, h3, h4⟩ := traitAttrs_is l rfl rfl ha
  rw [PItem.erase] at hq ⊢
  unfold traitMetadata
  simp only [parent_concat (canon_ne hp), ofRes_bind]
  unfold TraitIs
  dsimp only
  rw [docs_filter, docs_text] at h1
  rw [← h2, others, ← h1]
  refine sat_bind (publicPath_place hu hr ho hq rfl rfl) fun names hnames => ?_
  cases t with
  | traitInterface kind =>
    exact sat_bind (traitMethods_gives (r := .traitObject names.modulePath names.name kind) hu hr ho hp nofun (parseMethods_read hm))
      fun ms hms => sat_pure ⟨names.modulePath, names.name, names.origName, .traitInterface kind, ms, h4 _ ht, hnames, rfl, hms⟩
  | callbackInterface =>
    exact sat_bind (traitMethods_gives (r := .callbackInterface names.modulePath names.name) hu hr ho hp nofun (parseMethods_read hm))
      fun ms hms => sat_pure ⟨names.modulePath, names.name, names.origName, .callbackInterface, ms, h4 _ ht, hnames, rfl, hms⟩

theorem implMetadata_gives {env : CompileEnv} {l : Look} {metas : List Meta} {name : Option String} {self : Ty}
    {fns : List (SFn Meta)} {cs ms} (hn : implAttrs l metas none = .ok name) (hf : parseImplFns env fns = .ok (cs, ms)) :
    Gives ir (implMetadata ir n p name self cs ms) (ImplIs env l ir p self fns metas) := by
  have hname := implAttrs_is l hn
  rw [Option.or_none] at hname
  obtain ⟨hcs, hms⟩ := parseImplFns_read hf
  refine sat_bind (resolveMeta_gives hu hr ho hp) fun selfTy hself => sat_bind (Q := fun selfName =>
    match name with
    | some s => selfName = s
    | none => TypeName selfTy selfName) (gives_ofRes fun s hs => ?_) fun selfName hsel =>
    sat_bind (gives_each (fun _ _ h => consMetadata_gives hu hr ho hp h) hcs) fun os1 h1 =>
    sat_bind (gives_each (S := fun f o => ∀ r : RTy, selfTy = r.toMeta ∧ r ≠ .u8 →
        ∃ byArc fn, o = .data byArc (.method ⟨selfName, fn⟩) ∧ MethodIs env ir p r f byArc fn)
      (fun _ _ h => sat_bind (methodParts_gives hu hr ho hp h) fun o hm => sat_pure fun r hr => ⟨_, _, rfl, hm r hr⟩) hms)
      fun os2 h2 => sat_pure ⟨selfTy, selfName, os1, os2, rfl, hself, ?_, fun r hr h8 =>
        ⟨each_forall h1 r ⟨hr, h8⟩, each_forall h2 r ⟨hr, h8⟩⟩⟩
  · cases name with
    | some x => cases hs; rfl
    | none =>
      dsimp only at hs ⊢
      cases hx : udlName selfTy with
      | some y => rw [hx] at hs; cases hs; exact udlName_is hx
      | none => rw [hx] at hs; exact nomatch hs
  · rw [← hname]; exact hsel

omit hu hr ho hp in
theorem resolveArg_nil {rec : Rec} {arg : Ty} : resolveArg rec p [] arg = rec p arg [] [] := by
  unfold resolveArg
  split <;> rfl

theorem from_gives {args : List Ty} {self : Ty} (c : FullCache) (hc : FullReach ir c) (ty : MTy)
    (h : (fromImpl ir n p args self c).1 = .ok (some ty)) :
    ∃ arg, args = [arg] ∧ (TraitsLocal ir p arg → ParamsFresh ir p arg → Means ir [] p arg .unexpectedCallbackError) ∧
      TypeIs ir p self ty := by
  match args with
  | [] => exact nomatch h
  | _ :: _ :: _ => exact nomatch h
  | [arg] =>
    have : Gives ir (fromImpl ir n p [arg] self) (fun o => ∀ ty, o = some ty →
        (TraitsLocal ir p arg → ParamsFresh ir p arg → Means ir [] p arg .unexpectedCallbackError) ∧ TypeIs ir p self ty) := by
      have hf : fromImpl ir n p [arg] self = (resolveType ir n p arg).bind fun t =>
          if t = .unexpectedCallbackError then (resolveMeta ir n p self none).bind fun ty => .pure (some ty)
          else .pure none := by
        have : ∀ (m : M STy), m.bind (fun t => .pure (id t)) = m := by
          intro m; funext c; unfold M.bind M.pure; dsimp only
          cases h : m c with | mk a b => cases a <;> rfl
        unfold fromImpl resolve1 resolveType
        dsimp only
        rw [this, resolveArg_nil]
      rw [hf]
      refine sat_bind (resolveType_gives hu hr ho hp) fun t ht => ?_
      split
      · rename_i h; subst h
        exact sat_bind (resolveMeta_gives hu hr ho hp) fun m hm => sat_pure (by rintro _ ⟨⟩; exact ⟨ht, hm⟩)
      · exact sat_pure nofun
    exact ⟨arg, rfl, (this c hc).2.1 _ h ty rfl⟩

theorem unresolvedMetadata_gives {trait : Option (Path × List Ty)} {self : Ty} :
    Gives ir (unresolvedMetadata ir n p trait self) (FromIs ir p trait self) := by
  intro c hc
  refine ⟨(unresolvedMetadata_keeps hu hr hp c hc).1, fun os hos => ?_, fun _ _ => trivial⟩
  have hos : (unresolvedMetadata ir n p trait self c).1 = .ok os := hos
  unfold unresolvedMetadata at hos
  split at hos
  · rename_i ty c' ht
    cases hos
    unfold traitImpl at ht
    split at ht
    · exact nomatch ht
    · rename_i path args
      split at ht
      · rename_i q c1 hq
        have hres := resolve_sat hu path hp (E := fun _ => True) (fun _ _ => trivial) c hc
        rw [hq] at hres
        obtain ⟨_, hden⟩ := hres.2.1 q rfl
        split at ht
        · rename_i hl
          obtain ⟨arg, rfl, hmean, hty⟩ := from_gives hu hr ho hp c1 hres.1 ty (by rw [ht])
          exact .inr ⟨path, arg, ty, q, rfl, rfl, hden, hl, hmean, hty⟩
        · exact nomatch ht
        · exact nomatch ht
      · exact nomatch ht
  · cases hos; exact .inl rfl

theorem customMetadata_gives {id ident builtin} {docs : List Meta}
    (hq : Canon ir (p ++ [(PItem.custom id (Verif.Src.docs docs) ident builtin).erase])) :
    Gives ir (customMetadata ir n (p ++ [(PItem.custom id (Verif.Src.docs docs) ident builtin).erase]) (Verif.Src.docs docs) builtin)
      (fun o => ∃ m orig b, o = .data false (.customType m ident.name orig b (docText docs)) ∧
        PlaceIs ir (p ++ [.decl id (.custom builtin) ident .pub none false]) none ident m ident.name orig ∧
        TypeIs ir p builtin b) := by
  rw [PItem.erase] at hq ⊢
  unfold customMetadata Verif.Src.docs
  rw [parent_concat (canon_ne hp), ofRes_bind, docs_text]
  refine sat_bind (resolveMeta_gives hu hr ho hp) fun b hb => sat_bind (publicPath_place hu hr ho hq rfl rfl) fun names hnames =>
    sat_pure ?_
  have : names.name = ident.name := by obtain ⟨_, _, _, _, _, _, h, _⟩ := hnames; exact h
  rw [this] at hnames ⊢
  exact ⟨_, _, _, rfl, hnames, hb⟩

end
end Verif.Src
