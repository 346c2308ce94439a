import Verif.Gen.RenameLemmas
namespace Verif.Gen.Api
open Verif Verif.Meta Verif.Gen

/-- The pipeline renames the type rightly. -/
def agrees (R : Renames) (t : MTy) : Prop := Pipeline.mapType R t = renamedTy R t

variable {R : Renames} {out : List String}

theorem opt_map_simple {o : Option MTy} (h : ∀ t ∈ o.toList, agrees R t) :
    o.map (Pipeline.mapType R) = o.map (renamedTy R) := by
  cases o with
  | none => rfl
  | some t => simp only [Option.map_some]; exact congrArg some (h t (by simp))

theorem pslots {g : Slot → Slot} {crate path : String} {ss : List Slot}
    (hg : ∀ s, g s = ⟨R.new crate (dot path s.name) s.name, Pipeline.mapType R s.ty⟩)
    (h : ∀ s ∈ ss, agrees R s.ty) : ss.map g = ss.map (renamedSlot R crate path) := by
  apply List.map_congr_left
  intro s hs
  rw [hg, h s hs]; rfl

theorem psig {crate path : String} {f : Sig} {g : Slot → Slot}
    (hg : ∀ s, g s = ⟨R.new crate (dot path s.name) s.name, Pipeline.mapType R s.ty⟩)
    (h : ∀ t ∈ f.types, agrees R t) :
    f.args.map g = f.args.map (renamedSlot R crate path) ∧
      f.ret.map (Pipeline.mapType R) = f.ret.map (renamedTy R) ∧
      f.throws.map (Pipeline.mapType R) = f.throws.map (renamedTy R) := by
  simp only [Sig.types, List.mem_append, List.mem_map] at h
  exact ⟨pslots hg fun s hs => h _ (.inl (.inl ⟨s, hs, rfl⟩)),
    opt_map_simple fun t ht => h _ (.inl (.inr ht)), opt_map_simple fun t ht => h _ (.inr ht)⟩

theorem pfunction {crate : String} {f : Sig} (hs : f.symbol = fnSymbol crate f.name)
    (h : ∀ t ∈ f.types, agrees R t) :
    Pipeline.functionCallable R crate f = renamedSig R crate f.name f := by
  obtain ⟨h1, h2, h3⟩ := psig (R := R) (crate := crate) (path := f.name)
    (g := Pipeline.mapFuncArg R crate f.name) (fun _ => rfl) h
  unfold Pipeline.functionCallable renamedSig
  rw [h1, h2, h3, hs]; rfl

theorem pmethod {crate owner : String} {self : MTy} {m : Member}
    (hm : m.owner = self ∧ m.sig.symbol = methodSymbol crate owner m.sig.name)
    (h : ∀ t ∈ m.types, agrees R t) :
    Pipeline.methodCallable R crate owner (Pipeline.mapType R self) m.sig = renamedMember R crate owner m := by
  have ho := h _ (List.mem_cons_self : m.owner ∈ m.types)
  obtain ⟨h1, h2, h3⟩ := psig (R := R) (crate := crate) (path := dot owner m.sig.name)
    (g := Pipeline.mapMethodArg R crate owner m.sig.name) (fun _ => rfl)
    (fun t ht => h t (List.mem_cons_of_mem _ ht))
  unfold Pipeline.methodCallable renamedMember renamedSig
  rw [h1, h2, h3, hm.2, ← hm.1, ho]; rfl

theorem pctor {crate owner : String} {self : MTy} {m : Member}
    (hm : m.owner = self ∧ m.sig.symbol = constructorSymbol crate owner m.sig.name)
    (h : ∀ t ∈ m.types, agrees R t) :
    Pipeline.constructorCallable R crate owner (Pipeline.mapType R self) m.sig =
      renamedMember R crate owner m := by
  have ho := h _ (List.mem_cons_self : m.owner ∈ m.types)
  obtain ⟨h1, h2, h3⟩ := psig (R := R) (crate := crate) (path := dot owner m.sig.name)
    (g := Pipeline.mapMethodArg R crate owner m.sig.name) (fun _ => rfl)
    (fun t ht => h t (List.mem_cons_of_mem _ ht))
  unfold Pipeline.constructorCallable renamedMember renamedSig
  rw [h1, h2, h3, hm.2, ← hm.1, ho]; rfl

theorem pmethods {crate owner : String} {self : MTy} {ms : List Member}
    (hm : membersOf self (methodSymbol crate owner) ms) (h : ∀ m ∈ ms, ∀ t ∈ m.types, agrees R t) :
    Pipeline.methods R out crate owner (Pipeline.mapType R self) ms =
      (kept out owner ms).map (renamedMember R crate owner) :=
  filterMap_out out (fun m : Member => dot owner m.sig.name) _ (renamedMember R crate owner) ms
    fun m hx => pmethod (hm m hx) (h m hx)

theorem pctors {crate owner : String} {self : MTy} {ms : List Member}
    (hm : membersOf self (constructorSymbol crate owner) ms) (h : ∀ m ∈ ms, ∀ t ∈ m.types, agrees R t) :
    Pipeline.constructors R out crate owner (Pipeline.mapType R self) ms =
      (kept out owner ms).map (renamedMember R crate owner) :=
  filterMap_out out (fun m : Member => dot owner m.sig.name) _ (renamedMember R crate owner) ms
    fun m hx => pctor (hm m hx) (h m hx)

theorem ptraits {crate owner : String} {self : MTy} {ms : List Member}
    (hm : membersOf self (methodSymbol crate owner) ms) (h : ∀ m ∈ ms, ∀ t ∈ m.types, agrees R t) :
    Pipeline.traitMethods R crate owner (Pipeline.mapType R self) ms =
      ms.map (renamedMember R crate owner) :=
  List.map_congr_left fun m hx => pmethod (hm m hx) (h m hx)

theorem exclude_isOneOf (crate : String) (t : MTy) :
    Pipeline.excludeType crate out t = isOneOf crate out t := by
  cases t <;> rfl

theorem pipeline_eq {api : Api} (hl : Loaded api) (hs : ∀ t ∈ mentioned api, agrees R t) :
    Pipeline.mapNamespace R out api = renamed R (excluded out api) := by
  have hfun : ∀ f ∈ api.functions, ∀ t ∈ f.types, agrees R t := fun f hf t ht => hs t (by
    simp only [mentioned, List.mem_append, List.mem_flatMap]; exact .inl (.inl (.inl (.inl ⟨f, hf, ht⟩))))
  have hmem : ∀ m ∈ members api, ∀ t ∈ m.types, agrees R t := fun m hm t ht => hs t (by
    simp only [mentioned, List.mem_append, List.mem_flatMap]; exact .inl (.inl (.inl (.inr ⟨m, hm, ht⟩))))
  have hfld : ∀ s ∈ fields api, agrees R s.ty := fun s hm => hs _ (by
    simp only [mentioned, List.mem_append, List.mem_map]; exact .inl (.inr ⟨s, hm, rfl⟩))
  have hkn : ∀ t ∈ api.known, agrees R t := fun t ht => hs _ (by
    simp only [mentioned, List.mem_append]; exact .inr ht)
  have hrec : ∀ r ∈ api.records, ∀ m, m ∈ r.ctors ∨ m ∈ r.methods ∨ m ∈ r.traits →
      ∀ t ∈ m.types, agrees R t := fun r hr m hm => hmem m (by
    simp only [members, List.mem_append, List.mem_flatMap]
    exact .inl (.inl (.inl ⟨r, hr, by grind⟩)))
  have henum : ∀ r ∈ api.enums, ∀ m, m ∈ r.ctors ∨ m ∈ r.methods ∨ m ∈ r.traits →
      ∀ t ∈ m.types, agrees R t := fun r hr m hm => hmem m (by
    simp only [members, List.mem_append, List.mem_flatMap]
    exact .inl (.inl (.inr ⟨r, hr, by grind⟩)))
  have hobj : ∀ r ∈ api.objects, ∀ m, m ∈ r.ctors ∨ m ∈ r.methods ∨ m ∈ r.traits →
      ∀ t ∈ m.types, agrees R t := fun r hr m hm => hmem m (by
    simp only [members, List.mem_append, List.mem_flatMap]
    exact .inl (.inr ⟨r, hr, by grind⟩))
  have hcb : ∀ r ∈ api.callbacks, ∀ m ∈ r.methods,
      ∀ t ∈ m.types, agrees R t := fun r hr m hm => hmem m (by
    simp only [members, List.mem_append, List.mem_flatMap]
    exact .inr ⟨r, hr, hm⟩)
  have e1 : (Pipeline.mapNamespace R out api).functions = (renamed R (excluded out api)).functions :=
    filterMap_out out (fun f : Sig => f.name) _ _ _ fun f hf => pfunction (hl.functions f hf) (hfun f hf)
  have e2 : (Pipeline.mapNamespace R out api).records = (renamed R (excluded out api)).records := by
    refine (filterMap_out out (fun r : Rec => r.name) _ (fun r => renamedRec R api.crate
      { r with ctors := kept out r.name r.ctors, methods := kept out r.name r.methods }) _
      fun r hr => ?_).trans ?_
    · obtain ⟨hc, h1, h2, h3⟩ := hl.records r hr
      have hh := hrec r hr
      unfold Pipeline.mapRecord renamedRec
      simp only
      rw [pctors h1 fun m hm => hh m (.inl hm), pmethods h2 fun m hm => hh m (.inr (.inl hm)),
        ptraits h3 fun m hm => hh m (.inr (.inr hm)),
        pslots (R := R) (crate := api.crate) (path := r.name)
          (g := Pipeline.mapField R api.crate r.name) (fun _ => rfl) fun s hs => hfld s (by
          simp only [fields, List.mem_append, List.mem_flatMap]; exact .inl ⟨r, hr, hs⟩)]
      rfl
    · simp only [renamed, excluded, List.map_map]; rfl
  have e3 : (Pipeline.mapNamespace R out api).enums = (renamed R (excluded out api)).enums := by
    refine (filterMap_out out (fun r : Enum => r.name) _ (fun r => renamedEnum R api.crate
      { r with ctors := kept out r.name r.ctors, methods := kept out r.name r.methods }) _
      fun r hr => ?_).trans ?_
    · obtain ⟨hc, h1, h2, h3⟩ := hl.enums r hr
      have hh := henum r hr
      have hv : r.variants.map (fun v => Variant.mk (Pipeline.rename R api.crate (r.name ++ "." ++ v.name) v.name)
          (v.fields.map (Pipeline.mapVariantField R api.crate r.name v.name))) =
          r.variants.map (renamedVariant R api.crate r.name) := by
        apply List.map_congr_left
        intro v hv
        unfold renamedVariant
        rw [pslots (R := R) (crate := api.crate) (path := dot r.name v.name)
          (g := Pipeline.mapVariantField R api.crate r.name v.name) (fun _ => rfl) fun s hs => hfld s (by
          simp only [fields, List.mem_append, List.mem_flatMap]; exact .inr ⟨r, hr, v, hv, hs⟩)]
        rfl
      unfold Pipeline.mapEnum renamedEnum
      simp only
      rw [pctors h1 fun m hm => hh m (.inl hm), pmethods h2 fun m hm => hh m (.inr (.inl hm)),
        ptraits h3 fun m hm => hh m (.inr (.inr hm)), hv]
      rfl
    · simp only [renamed, excluded, List.map_map]; rfl
  have e4 : (Pipeline.mapNamespace R out api).objects = (renamed R (excluded out api)).objects := by
    refine (filterMap_out out (fun r : Obj => r.name) _ (fun r => renamedObj R api.crate
      { r with ctors := kept out r.name r.ctors, methods := kept out r.name r.methods }) _
      fun r hr => ?_).trans ?_
    · obtain ⟨hc, h1, h2, h3, h4, h5, h6⟩ := hl.objects r hr
      have hh := hobj r hr
      have ht : (if Legacy.hasCallbackInterface r.imp then
          some (Pipeline.vtable R api.crate r.name (Pipeline.mapType R (.object r.path r.name r.imp)) r.methods)
          else none) = r.table.map (renamedTable R api.crate r.name) := by
        rw [h6]
        by_cases hi : Legacy.hasCallbackInterface r.imp = true
        · rw [if_pos hi, if_pos ((hasCallback_iff _).1 hi)]
          unfold Pipeline.vtable
          rw [show (r.methods.map fun m => Pipeline.methodCallable R api.crate r.name
            (Pipeline.mapType R (.object r.path r.name r.imp)) m.sig) = _ from
            ptraits h2 fun m hm => hh m (.inr (.inl hm))]
          rfl
        · rw [if_neg hi, if_neg (fun h => hi ((hasCallback_iff _).2 h))]; rfl
      unfold Pipeline.mapInterface renamedObj
      simp only
      rw [pctors h1 fun m hm => hh m (.inl hm), pmethods h2 fun m hm => hh m (.inr (.inl hm)),
        ptraits h3 fun m hm => hh m (.inr (.inr hm)), ht, h4, h5]
      rfl
    · simp only [renamed, excluded, List.map_map]; rfl
  have e5 : (Pipeline.mapNamespace R out api).callbacks = (renamed R (excluded out api)).callbacks := by
    refine (filterMap_out out (fun r : Cb => r.name) _ (fun r => renamedCb R api.crate
      { r with methods := kept out r.name r.methods }) _
      fun r hr => ?_).trans ?_
    · obtain ⟨hc, h2, h6⟩ := hl.callbacks r hr
      have hh := hcb r hr
      unfold Pipeline.mapCallbackInterface renamedCb Pipeline.vtable
      simp only
      rw [pmethods h2 hh, show (r.methods.map fun m => Pipeline.methodCallable R api.crate r.name
            (Pipeline.mapType R (.callbackInterface r.path r.name)) m.sig) = _ from
            ptraits h2 hh, h6]
      rfl
    · simp only [renamed, excluded, List.map_map]; rfl
  have e6 : (Pipeline.mapNamespace R out api).known = (renamed R (excluded out api)).known := by
    simp only [Pipeline.mapNamespace, renamed, excluded]
    have := hkn
    generalize api.known = l at this
    induction l with
    | nil => rfl
    | cons t l ih =>
      have ih := ih (fun t ht => this t (List.mem_cons_of_mem _ ht))
      rw [List.filterMap_cons, List.filter_cons, exclude_isOneOf]
      cases hx : isOneOf api.crate out t
      · simp only [Bool.false_eq_true, if_false, Bool.not_false, if_true, List.map_cons]
        rw [this t (by simp)]
        exact congrArg _ ih
      · simp only [if_true, Bool.not_true, Bool.false_eq_true, if_false]
        exact ih
  have : ∀ a b : Api, a.crate = b.crate → a.functions = b.functions → a.records = b.records →
      a.enums = b.enums → a.objects = b.objects → a.callbacks = b.callbacks → a.known = b.known →
      a = b := by
    intro a b h1 h2 h3 h4 h5 h6 h7
    cases a; cases b; simp only at *; subst h1 h2 h3 h4 h5 h6 h7; rfl
  exact this _ _ rfl e1 e2 e3 e4 e5 e6

end Verif.Gen.Api
