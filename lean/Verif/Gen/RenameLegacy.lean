import Verif.Gen.RenameLemmas
namespace Verif.Gen.Api
open Verif Verif.Meta Verif.Gen

variable {R : Renames} {out : List String}

theorem filter_out {α : Type} (out : List String) (key : α → String) (l : List α) :
    (l.filter fun x => !out.contains (key x)) = l.filter fun x => key x ∉ out := by
  apply List.filter_congr; intro x _; simp

theorem removeMembers_kept (owner : String) (ms : List Member) :
    Legacy.removeMembers out owner ms = kept out owner ms :=
  filter_out out (fun m : Member => dot owner m.sig.name) ms

theorem legacy_new {crate path key name : String} (h : crateName path = crate) :
    Legacy.rename R path key name = R.new crate key name := by subst h; rfl

theorem lslots {this crate mp path : String} {ss : List Slot} (hthis : crateName this = this)
    (hmp : crateName mp = crate) (h : ∀ s ∈ ss, uniform this s.ty) :
    (Legacy.visitSlotTypes R this (Legacy.fieldNames R mp path ss)) =
      ss.map (renamedSlot R crate path) := by
  unfold Legacy.visitSlotTypes Legacy.fieldNames
  rw [List.map_map]
  apply List.map_congr_left
  intro s hs
  simp only [Function.comp, renamedSlot]
  rw [visitType_uniform R this hthis _ (h s hs), legacy_new hmp]; rfl

theorem lopt {this : String} {o : Option MTy} (hthis : crateName this = this)
    (h : ∀ t ∈ o.toList, uniform this t) :
    o.map (Legacy.visitType R this) = o.map (renamedTy R) := by
  cases o with
  | none => rfl
  | some t => simp [visitType_uniform R this hthis t (h t (by simp))]

theorem opt_fixed {o : Option MTy} (h : ∀ t ∈ o.toList, renamedTy R t = t) :
    o.map (renamedTy R) = o := by
  cases o with
  | none => rfl
  | some t => simp [h t (by simp)]

theorem lfunction {crate : String} {f : Sig} (hc : crateName crate = crate)
    (h : ∀ t ∈ f.types, uniform crate t) :
    Legacy.visitSigTypes R crate (Legacy.visitFunction R crate f) = renamedSig R crate f.name f := by
  simp only [Sig.types, List.mem_append, List.mem_map] at h
  have h1 := lslots (R := R) (path := f.name) hc hc (ss := f.args) fun s hs => h _ (.inl (.inl ⟨s, hs, rfl⟩))
  have h2 := lopt (R := R) hc (o := f.ret) fun t ht => h _ (.inl (.inr ht))
  have h3 := lopt (R := R) hc (o := f.throws) fun t ht => h _ (.inr ht)
  unfold Legacy.fieldNames at h1
  simp only [Legacy.visitSigTypes, Legacy.visitFunction, renamedSig]
  rw [h1, h2, h3, legacy_new hc]

theorem lmethod {crate owner : String} {m : Member} (hc : crateName crate = crate)
    (h : ∀ t ∈ m.sig.types, uniform crate t) :
    Legacy.visitSigTypes R crate (Legacy.visitMember R crate owner m).sig =
      (renamedMember R crate owner m).sig := by
  simp only [Sig.types, List.mem_append, List.mem_map] at h
  have h1 := lslots (R := R) (path := dot owner m.sig.name) hc hc (ss := m.sig.args)
    fun s hs => h _ (.inl (.inl ⟨s, hs, rfl⟩))
  have h2 := lopt (R := R) hc (o := m.sig.ret) fun t ht => h _ (.inl (.inr ht))
  have h3 := lopt (R := R) hc (o := m.sig.throws) fun t ht => h _ (.inr ht)
  unfold Legacy.fieldNames at h1
  simp only [Legacy.visitSigTypes, Legacy.visitMember, renamedMember, renamedSig]
  rw [h2, h3, legacy_new hc]
  exact congrArg (fun a => Sig.mk _ a _ _ _) h1

theorem lctor {crate owner : String} {m : Member} (hc : crateName crate = crate)
    (h : ∀ s ∈ m.sig.args, uniform crate s.ty) (hf : fixed R (m.sig.ret.toList ++ m.sig.throws.toList)) :
    Legacy.visitArgTypes R crate (Legacy.visitMember R crate owner m).sig =
      (renamedMember R crate owner m).sig := by
  have h1 := lslots (R := R) (path := dot owner m.sig.name) hc hc (ss := m.sig.args) h
  have h2 := opt_fixed (R := R) (o := m.sig.ret) fun t ht => hf t (List.mem_append_left _ ht)
  have h3 := opt_fixed (R := R) (o := m.sig.throws) fun t ht => hf t (List.mem_append_right _ ht)
  unfold Legacy.fieldNames at h1
  simp only [Legacy.visitArgTypes, Legacy.visitMember, renamedMember, renamedSig]
  rw [h2, h3, legacy_new hc]
  exact congrArg (fun a => Sig.mk _ a _ _ _) h1

theorem anon_ext {m n : Member} (h : m.sig = n.sig) : m.anon = n.anon := by
  unfold Member.anon; rw [h]

theorem anon_map {f g : Member → Member} {ms : List Member} (h : ∀ m ∈ ms, (f m).sig = (g m).sig) :
    (ms.map f).map Member.anon = (ms.map g).map Member.anon := by
  rw [List.map_map, List.map_map]
  exact List.map_congr_left fun m hm => anon_ext (h m hm)

theorem anon_id {g : Member → Member} {ms : List Member} (h : ∀ m ∈ ms, m.sig = (g m).sig) :
    ms.map Member.anon = (ms.map g).map Member.anon := by
  rw [List.map_map]
  exact List.map_congr_left fun m hm => anon_ext (h m hm)

theorem mem_kept {owner : String} {ms : List Member} {m : Member} (h : m ∈ kept out owner ms) : m ∈ ms :=
  (List.mem_filter.1 h).1

theorem kept_all {owner : String} {ms : List Member} (h : ∀ m ∈ ms, dot owner m.sig.name ∉ out) :
    kept out owner ms = ms := by
  apply List.filter_eq_self.2; intro m hm; simpa using h m hm

theorem initVtable_crate {m crate n : String} (h : crateName m = crate) (hc : crateName crate = crate) :
    initVtableSymbol m n = initVtableSymbol crate n := by
  unfold initVtableSymbol symNamespace; rw [h, hc]

theorem tyName_head (t : MTy) : ∀ n, tyName t = some n →
    ∃ m, (m, n) ∈ (namedIn t).head? ∧ declaredIn t = some m := by
  intro n h
  cases t <;> simp [tyName] at h <;> subst h <;> exact ⟨_, by simp [namedIn], rfl⟩

theorem isOneOf_name {crate : String} (t : MTy) :
    isOneOf crate out t = true ↔ ∃ m n, tyName t = some n ∧ declaredIn t = some m ∧
      crateName m = crate ∧ n ∈ out := by
  cases t <;> simp [isOneOf, tyName, declaredIn]

theorem known_eq {api : Api} (h : ∀ t ∈ api.known, ∀ p ∈ (namedIn t).head?, declaredIn t = some p.1 →
    p.2 ∈ out → crateName p.1 = api.crate ∧
    p.2 ∈ api.records.map (·.name) ++ api.enums.map (·.name) ++ api.objects.map (·.name) ++
      api.callbacks.map (·.name)) :
    (Legacy.applyExclusions out api).known = (excluded out api).known := by
  simp only [Legacy.applyExclusions, Legacy.retainKnown, List.filter_filter, excluded]
  apply List.filter_congr
  intro t ht
  have ho := h t ht
  cases hn : tyName t with
  | none =>
    have : isOneOf api.crate out t = false := by
      cases hx : isOneOf api.crate out t
      · rfl
      · obtain ⟨m, n, h1, _⟩ := (isOneOf_name t).1 hx; rw [hn] at h1; cases h1
    simp [this]
  | some n =>
    obtain ⟨m, h1, h2⟩ := tyName_head t n hn
    by_cases hx : n ∈ out
    · obtain ⟨h3, h4⟩ := ho (m, n) h1 h2 hx
      have : isOneOf api.crate out t = true := (isOneOf_name t).2 ⟨m, n, hn, h2, h3, hx⟩
      rw [this]
      simp only [List.mem_append] at h4
      simp only [Legacy.removedNames, Bool.not_true]
      apply Decidable.byContradiction
      intro hne
      simp only [Bool.not_eq_false, Bool.and_eq_true, Bool.not_eq_true', List.contains_eq_mem,
        decide_eq_false_iff_not, List.mem_filter, hx, decide_true, and_true] at hne
      rcases h4 with ((h4 | h4) | h4) | h4
      · exact hne.2.2.2 h4
      · exact hne.2.2.1 h4
      · exact hne.2.1 h4
      · exact hne.1 h4
    · have : isOneOf api.crate out t = false := by
        cases hy : isOneOf api.crate out t
        · rfl
        · obtain ⟨m', n', h1', _, _, h4'⟩ := (isOneOf_name t).1 hy
          rw [hn] at h1'; cases h1'; exact absurd h4' hx
      simp [this, Legacy.removedNames, hx]

theorem legacy_eq {api : Api} (hc : crateName api.crate = api.crate) (hl : Loaded api)
    (h : Covered R out api) :
    anon (Legacy.configure R out api) = anon (renamed R (excluded out api)) := by
  have e1 : (Legacy.configure R out api).functions = (renamed R (excluded out api)).functions := by
    show ((api.functions.filter fun f => !out.contains f.name).map fun f =>
      Legacy.visitSigTypes R api.crate (Legacy.visitFunction R api.crate f)) = _
    rw [filter_out out (fun f : Sig => f.name)]
    exact List.map_congr_left fun f hf => lfunction hc (h.functions f (List.mem_filter.1 hf).1)
  have e6 : (Legacy.configure R out api).known = (renamed R (excluded out api)).known := by
    have := known_eq h.out
    show (Legacy.applyExclusions out api).known.map (Legacy.visitType R api.crate) = _
    rw [this]
    exact List.map_congr_left fun t ht =>
      visitType_uniform R _ hc _ (h.known t (List.mem_filter.1 ht).1)
  have e2 : (anon (Legacy.configure R out api)).records = (anon (renamed R (excluded out api))).records := by
    simp only [anon, Legacy.configure, Legacy.deriveFfi, Legacy.visitMut, Legacy.applyExclusions, renamed,
      excluded, List.map_map]
    rw [filter_out out (fun r : Rec => r.name)]
    apply List.map_congr_left
    intro r hr
    have hr := (List.mem_filter.1 hr).1
    have hu := h.records r hr
    simp only [Function.comp, Legacy.visitRecord, renamedRec, removeMembers_kept]
    rw [lslots hc (hl.records r hr).1 fun s hs => h.fields s (by
        simp only [fields, List.mem_append, List.mem_flatMap]; exact .inl ⟨r, hr, hs⟩),
      legacy_new (hl.records r hr).1,
      anon_id (g := renamedMember R api.crate r.name) (ms := kept out r.name r.ctors) fun m hm =>
        (hu m (by have := mem_kept hm; simp [this])).symm,
      anon_id (g := renamedMember R api.crate r.name) (ms := kept out r.name r.methods) fun m hm =>
        (hu m (by have := mem_kept hm; simp [this])).symm,
      anon_id (g := renamedMember R api.crate r.name) (ms := r.traits) fun m hm =>
        (hu m (by simp [hm])).symm]
  have e3 : (anon (Legacy.configure R out api)).enums = (anon (renamed R (excluded out api))).enums := by
    simp only [anon, Legacy.configure, Legacy.deriveFfi, Legacy.visitMut, Legacy.applyExclusions, renamed,
      excluded, List.map_map]
    rw [filter_out out (fun r : Enum => r.name)]
    apply List.map_congr_left
    intro r hr
    have hr := (List.mem_filter.1 hr).1
    have hu := h.enums r hr
    have hcr := (hl.enums r hr).1
    have hv : (r.variants.map ((fun v : Variant =>
        { v with fields := Legacy.visitSlotTypes R api.crate v.fields }) ∘ fun v =>
        { v with
          fields := Legacy.fieldNames R r.path (r.name ++ "." ++ v.name) v.fields
          name := Legacy.rename R r.path (r.name ++ "." ++ v.name) v.name })) =
        r.variants.map (renamedVariant R api.crate r.name) := by
      apply List.map_congr_left
      intro v hv
      simp only [Function.comp, renamedVariant]
      rw [lslots hc hcr fun s hs => h.fields s (by
        simp only [fields, List.mem_append, List.mem_flatMap]; exact .inr ⟨r, hr, v, hv, hs⟩),
        legacy_new hcr]
      rfl
    simp only [Function.comp_apply, Legacy.visitEnum, renamedEnum, removeMembers_kept, List.map_map]
    rw [hv,
      legacy_new hcr,
      anon_id (g := renamedMember R api.crate r.name) (ms := kept out r.name r.ctors) fun m hm =>
        (hu m (by have := mem_kept hm; simp [this])).symm,
      anon_id (g := renamedMember R api.crate r.name) (ms := kept out r.name r.methods) fun m hm =>
        (hu m (by have := mem_kept hm; simp [this])).symm,
      anon_id (g := renamedMember R api.crate r.name) (ms := r.traits) fun m hm =>
        (hu m (by simp [hm])).symm]
    simp only [List.map_map]
  have e4 : (anon (Legacy.configure R out api)).objects = (anon (renamed R (excluded out api))).objects := by
    simp only [anon, Legacy.configure, Legacy.deriveFfi, Legacy.visitMut, Legacy.applyExclusions, renamed,
      excluded, List.map_map]
    rw [filter_out out (fun r : Obj => r.name)]
    apply List.map_congr_left
    intro r hr
    have hr := (List.mem_filter.1 hr).1
    obtain ⟨u1, u2, u3, u4, u5⟩ := h.objects r hr
    obtain ⟨hcr, _, _, _, _, _, ht⟩ := hl.objects r hr
    have hms : ((kept out r.name r.methods).map fun m =>
        { Legacy.visitMember R api.crate r.name m with
          sig := Legacy.visitSigTypes R api.crate (Legacy.visitMember R api.crate r.name m).sig }).map
            Member.anon = ((kept out r.name r.methods).map (renamedMember R api.crate r.name)).map Member.anon :=
      anon_map fun m hm => lmethod hc (u1 m (mem_kept hm))
    have hcs : ((kept out r.name r.ctors).map fun m =>
        { Legacy.visitMember R api.crate r.name m with
          sig := Legacy.visitArgTypes R api.crate (Legacy.visitMember R api.crate r.name m).sig }).map
            Member.anon = ((kept out r.name r.ctors).map (renamedMember R api.crate r.name)).map Member.anon :=
      anon_map fun m hm => lctor hc (u2 m (mem_kept hm)) (u3 m (mem_kept hm))
    have hts : r.traits.map Member.anon = (r.traits.map (renamedMember R api.crate r.name)).map Member.anon :=
      anon_id fun m hm => (u4 m hm).symm
    simp only [Function.comp, Legacy.walkObject, Legacy.visitObject, renamedObj, removeMembers_kept]
    rw [hms, hcs, hts, legacy_new hcr]
    congr 1
    rw [ht]
    by_cases hi : Legacy.hasCallbackInterface r.imp = true
    · have hp := (hasCallback_iff _).1 hi
      rw [if_pos hi, if_pos hp]
      rw [ht, if_pos hp] at u5
      obtain ⟨v1, v2⟩ := u5 rfl
      have hn : R.new api.crate r.name r.name = r.name := by unfold Renames.new; rw [v1]
      simp only [Option.map_some, Table.anon, renamedTable]
      rw [hms, kept_all v2, hn, initVtable_crate hcr hc]
    · rw [if_neg hi, if_neg (fun h => hi ((hasCallback_iff _).2 h))]; rfl
  have e5 : (anon (Legacy.configure R out api)).callbacks =
      (anon (renamed R (excluded out api))).callbacks := by
    simp only [anon, Legacy.configure, Legacy.deriveFfi, Legacy.visitMut, Legacy.applyExclusions, renamed,
      excluded, List.map_map]
    rw [filter_out out (fun r : Cb => r.name)]
    apply List.map_congr_left
    intro r hr
    have hr := (List.mem_filter.1 hr).1
    obtain ⟨u1, u2, v1, v2⟩ := h.callbacks r hr
    obtain ⟨hcr, _, ht⟩ := hl.callbacks r hr
    have hn : R.new api.crate r.name r.name = r.name := by unfold Renames.new; rw [v1]
    have hms : ((kept out r.name r.methods).map fun m =>
        { Legacy.visitMember R api.crate r.name m with
          sig := Legacy.visitArgTypes R api.crate (Legacy.visitMember R api.crate r.name m).sig }).map
            Member.anon = ((kept out r.name r.methods).map (renamedMember R api.crate r.name)).map Member.anon :=
      anon_map fun m hm => lctor hc (u1 m (mem_kept hm)) (u2 m (mem_kept hm))
    simp only [Function.comp, Legacy.walkCallback, Legacy.visitCallback, renamedCb, removeMembers_kept]
    rw [legacy_new hcr, hn, hms, ht]
    simp only [Table.anon, renamedTable]
    rw [hms, kept_all v2, initVtable_crate hcr hc]
  have : ∀ a b : Api, a.crate = b.crate → a.functions = b.functions → a.records = b.records →
      a.enums = b.enums → a.objects = b.objects → a.callbacks = b.callbacks → a.known = b.known →
      a = b := by
    intro a b h1 h2 h3 h4 h5 h6 h7
    cases a; cases b; simp only at *; subst h1 h2 h3 h4 h5 h6 h7; rfl
  exact this _ _ rfl e1 e2 e3 e4 e5 e6

end Verif.Gen.Api
