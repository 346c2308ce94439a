import Verif.Abi.OrderLemmas
import Verif.Abi.Lemmas
import Verif.Props.Metadata
namespace Verif.Abi
open Verif.Meta

theorem mapM_some {α β : Type} {f : α → Option β} : ∀ {l : List α} {l' : List β},
    l.map f = l'.map some → l.mapM f = some l'
  | [], [], _ => by simp
  | [], b :: l', h => by simp at h
  | a :: l, [], h => by simp at h
  | a :: l, b :: l', h => by
    simp only [List.map_cons, List.cons.injEq] at h
    simp [List.mapM_cons, h.1, mapM_some h.2]

/-! ### Tables -/

theorem find_of_mem {env : List (String × Slot)} : (env.map (·.1)).Nodup → ∀ {n s}, (n, s) ∈ env →
    env.find? (·.1 = n) = some (n, s) := by
  induction env with
  | nil => intro _ _ _ h; simp at h
  | cons a env ih =>
    intro hd n s h
    simp only [List.map_cons, List.nodup_cons] at hd
    rcases List.mem_cons.1 h with e | h
    · subst e; simp
    · rw [List.find?_cons_of_neg, ih hd.2 h]
      simp only [decide_eq_true_eq]
      intro e
      exact hd.1 (List.mem_map.2 ⟨(n, s), h, e.symm⟩)

theorem lookupLast_of_mem {env : List (String × Slot)} (hd : (env.map (·.1)).Nodup) {n : String}
    {s : Slot} (h : (n, s) ∈ env) : lookupLast env n = some s := by
  unfold lookupLast
  have hr : (env.reverse.map (·.1)).Nodup := by
    rw [List.map_reverse, List.nodup_iff_pairwise_ne, List.pairwise_reverse]
    exact (List.nodup_iff_pairwise_ne.1 hd).imp fun h => Ne.symm h
  rw [find_of_mem hr (List.mem_reverse.2 h)]
  rfl

/-- Looking up different names gives the table, whatever the order of the definitions. -/
theorem table_of_env {env : List (String × Slot)} {a b : String} {names : List String}
    (hd : (env.map (·.1)).Nodup) (ha : (a, Slot.free) ∈ env) (hb : (b, Slot.clone) ∈ env)
    (hn : ∀ (i : Nat) (n : String), names[i]? = some n → (n, Slot.method i) ∈ env) :
    (a :: b :: names).mapM (lookupLast env) = some (table names.length) := by
  apply mapM_some
  simp only [table, List.map_cons, lookupLast_of_mem hd ha, lookupLast_of_mem hd hb, List.map_map]
  congr 2
  apply List.ext_getElem
  · simp
  · intro i h1 h2
    simp only [List.length_map] at h1
    simp only [List.getElem_map, List.getElem_range, Function.comp]
    exact lookupLast_of_mem hd (hn i _ (List.getElem?_eq_getElem h1))

theorem methods_env (names : List String) :
    (names.mapIdx fun i n => (n, Slot.method i)).map (·.1) = names :=
  List.ext_getElem (by simp) (by simp)

theorem mem_methods_env {names : List String} {i : Nat} {n : String} (h : names[i]? = some n) :
    (n, Slot.method i) ∈ names.mapIdx fun i n => (n, Slot.method i) := by
  obtain ⟨hi, rfl⟩ := List.getElem?_eq_some_iff.1 h
  exact List.mem_mapIdx.2 ⟨i, hi, rfl⟩

theorem table_methods_first {a b : String} {names : List String} (hd : names.Nodup) (hab : a ≠ b)
    (ha : a ∉ names) (hb : b ∉ names) :
    (a :: b :: names).mapM (lookupLast ((names.mapIdx fun i n => (n, Slot.method i)) ++
      [(a, .free), (b, .clone)])) = some (table names.length) := by
  apply table_of_env
  · rw [List.map_append, methods_env, List.nodup_append]
    refine ⟨hd, by simp [hab], ?_⟩
    intro x hx y hy e
    simp at hy
    rcases hy with rfl | rfl
    · exact ha (e ▸ hx)
    · exact hb (e ▸ hx)
  · simp
  · simp
  · intro i n h; exact List.mem_append_left _ (mem_methods_env h)

theorem table_methods_last {a b : String} {names : List String} (hd : names.Nodup) (hab : a ≠ b)
    (ha : a ∉ names) (hb : b ∉ names) :
    (a :: b :: names).mapM (lookupLast ((a, Slot.free) :: (b, .clone) ::
      names.mapIdx fun i n => (n, Slot.method i))) = some (table names.length) := by
  apply table_of_env
  · simp only [List.map_cons, methods_env, List.nodup_cons, List.mem_cons, not_or]
    exact ⟨⟨hab, ha⟩, hb, hd⟩
  · simp
  · simp
  · intro i n h
    exact List.mem_cons_of_mem _ (List.mem_cons_of_mem _ (mem_methods_env h))

/-! ### Frames -/

theorem find_zip {α : Type} : ∀ {names : List String} {vals : List α} (i : Nat) {n : String} {v : α},
    names.Nodup → names[i]? = some n → vals[i]? = some v →
    (names.zip vals).find? (·.1 = n) = some (n, v)
  | [], _, i, n, v, _, h, _ => by simp at h
  | m :: names, [], i, n, v, _, _, h => by simp at h
  | m :: names, w :: vals, 0, n, v, _, h1, h2 => by simp_all
  | m :: names, w :: vals, i + 1, n, v, hd, h1, h2 => by
    simp only [List.getElem?_cons_succ] at h1 h2
    have hd := List.nodup_cons.1 hd
    rw [List.zip_cons_cons, List.find?_cons_of_neg, find_zip i hd.2 h1 h2]
    simp only [decide_eq_true_eq]
    intro e
    exact hd.1 (e ▸ List.mem_of_getElem? h1)

theorem passedOn_eq {α : Type} (handle : String) (argNames tailNames : List String) (h : α)
    (args tail : List α) (hl : args.length = argNames.length)
    (hd : (foreignParams handle argNames tailNames).Nodup) :
    passedOn (foreignParams handle argNames tailNames) (rustFrame h args tail) argNames =
      some args := by
  unfold passedOn
  apply mapM_some
  apply List.ext_getElem
  · simp [hl]
  · intro i h1 h2
    simp only [List.length_map] at h1 h2
    simp only [List.getElem_map]
    rw [find_zip (n := argNames[i]) (v := args[i]) (i + 1) hd]
    · rfl
    · simp [foreignParams, List.getElem?_append_left h1]
    · simp [rustFrame, List.getElem?_append_left h2]

/-! ### The methods of a library -/

/-- The metadata of a source function. -/
def source (f : FnSrc) : Option MFn := ((Item.fn f).emit).bind fun bs => f.meaning (fnv16 bs)

theorem read_source {f : FnSrc} {bs : Bytes} {x : Metadata} {tr : String} {i : UInt32}
    (hk : f.kind = .traitMethod tr i) (he : (Item.fn f).emit = some bs)
    (hr : readMetadata bs = .ok x) : ∃ g, source f = some g ∧ x = .traitMethod tr i g := by
  obtain ⟨c1, c2, h⟩ := Props.Metadata.C39_item_round_trip _ _ he
  have h := h []
  rw [List.append_nil, hr] at h
  simp only [Item.meaning, hk] at h
  cases hm : f.meaning (fnv16 bs) with
  | none => simp [hm] at h
  | some g =>
    simp only [hm, Option.map_some, Res.ok.injEq] at h
    exact ⟨g, by simp [source, he, hm], h⟩

theorem source_read {f : FnSrc} {g : MFn} {tr : String} {i : UInt32}
    (hk : f.kind = .traitMethod tr i) (hs : source f = some g) :
    ∃ bs, (Item.fn f).emit = some bs ∧ readMetadata bs = .ok (.traitMethod tr i g) := by
  simp only [source, Option.bind_eq_some_iff] at hs
  obtain ⟨bs, he, hm⟩ := hs
  obtain ⟨c1, c2, h⟩ := Props.Metadata.C39_item_round_trip _ _ he
  have h := h []
  rw [List.append_nil] at h
  simp only [Item.meaning, hk, hm, Option.map_some] at h
  exact ⟨bs, he, h⟩

theorem all_some {α β : Type} {f : α → Option β} : ∀ {l : List α}, (∀ a ∈ l, ∃ b, f a = some b) →
    ∃ l' : List β, l.map f = l'.map some
  | [], _ => ⟨[], rfl⟩
  | a :: l, h => by
    obtain ⟨b, hb⟩ := h a (by simp)
    obtain ⟨l', hl⟩ := all_some (l := l) fun a ha => h a (by simp [ha])
    exact ⟨b :: l', by simp [hb, hl]⟩

theorem library_sources {crate tr : String} {ms : List FnSrc} {items : List Metadata}
    (L : Library crate tr ms items) : ∃ fs : List MFn, ms.map source = fs.map some ∧
      fs.length ≤ 2 ^ 32 ∧
      (∀ i g, (i, g) ∈ crateTraitMethods crate tr items ↔ fs[i.toNat]? = some g) ∧
      (∀ i g, (i, g) ∈ traitMethodsOf tr (itemsOf crate items) ↔ fs[i.toNat]? = some g) := by
  obtain ⟨fs, hfs⟩ := all_some (f := source) (l := ms) (by
    intro f hf
    obtain ⟨bs, x, he, hr⟩ := L.compiled f hf
    obtain ⟨i, hi⟩ := List.mem_iff_getElem?.1 hf
    obtain ⟨g, hg, -⟩ := read_source (L.kind i f hi) he hr
    exact ⟨g, hg⟩)
  have hlen : ms.length = fs.length := by simpa using congrArg List.length hfs
  have hget : ∀ j : Nat, (ms[j]?).map source = (fs[j]?).map some := by
    intro j
    have := congrArg (fun l => l[j]?) hfs
    simpa using this
  have key : ∀ i g, (Metadata.traitMethod tr i g ∈ items ∧ crateName g.modulePath = crate) ↔
      fs[i.toNat]? = some g := by
    intro i g
    have hf := L.found (.traitMethod tr i g)
    have e : crateOf (.traitMethod tr i g) = some crate ↔ crateName g.modulePath = crate := by
      simp [crateOf, Metadata.modulePath]
    constructor
    · rintro ⟨h1, h2⟩
      obtain ⟨f, hm, bs, he, hr⟩ := hf.1 ⟨h1, e.2 h2, i, g, rfl⟩
      obtain ⟨j, hj⟩ := List.mem_iff_getElem?.1 hm
      obtain ⟨g', hg', hx⟩ := read_source (L.kind j f hj) he hr
      simp only [Metadata.traitMethod.injEq, true_and] at hx
      obtain ⟨rfl, rfl⟩ := hx
      have hlt : j < ms.length := (List.getElem?_eq_some_iff.1 hj).1
      have hs := L.short
      rw [toNat_ofNat (by omega)]
      have := hget j
      rw [hj, Option.map_some, hg'] at this
      cases hfj : fs[j]? with
      | none => simp [hfj] at this
      | some y => simp [hfj] at this; rw [this]
    · intro hg
      have := hget i.toNat
      rw [hg, Option.map_some] at this
      cases hj : ms[i.toNat]? with
      | none => simp [hj] at this
      | some f =>
        simp only [hj, Option.map_some, Option.some.injEq] at this
        have hk := L.kind _ _ hj
        rw [UInt32.ofNat_toNat] at hk
        obtain ⟨bs, he, hr⟩ := source_read hk this
        have h := hf.2 ⟨f, List.mem_of_getElem? hj, bs, he, hr⟩
        exact ⟨h.1, e.1 h.2.1⟩
  refine ⟨fs, hfs, by rw [← hlen]; exact L.short, fun i g => ?_, fun i g => ?_⟩
  · rw [← key]
    unfold crateTraitMethods
    rw [List.mem_filterMap]
    constructor
    · rintro ⟨x, hx, h⟩
      split at h
      · rename_i t j f
        split at h
        · rename_i hc
          simp only [Option.some.injEq, Prod.mk.injEq] at h
          obtain ⟨rfl, rfl⟩ := h
          exact ⟨hc.1 ▸ hx, hc.2⟩
        · simp at h
      · simp at h
    · rintro ⟨h1, h2⟩
      exact ⟨_, h1, by simp [h2]⟩
  · rw [← key]
    unfold traitMethodsOf itemsOf
    rw [List.mem_filterMap]
    constructor
    · rintro ⟨x, hx, h⟩
      have hx := List.mem_filter.1 hx
      split at h
      · rename_i t j f
        split at h
        · rename_i hc
          simp only [Option.some.injEq, Prod.mk.injEq] at h
          obtain ⟨rfl, rfl⟩ := h
          refine ⟨hc ▸ hx.1, ?_⟩
          simpa [grouped, crateOf, Metadata.modulePath] using hx.2
        · simp at h
      · simp at h
    · rintro ⟨h1, h2⟩
      refine ⟨_, List.mem_filter.2 ⟨h1, ?_⟩, by simp⟩
      simp [grouped, crateOf, Metadata.modulePath, h2]

theorem source_meaning {f : FnSrc} {g : MFn} (h : source f = some g) : ∃ c, f.meaning c = some g := by
  simp only [source, Option.bind_eq_some_iff] at h
  obtain ⟨bs, _, h⟩ := h
  exact ⟨_, h⟩

/-! ### Fields -/

theorem callable_args {f : FnSrc} (hc : Callable f) : ∀ a ∈ f.args, ArgOk a :=
  fun a ha => .inl (hc.args a ha).1

theorem value_not_borrowed {a : ArgSrc} {m : MArg} (hm : a.meaning = some m)
    (hv : a.passBy = .value) : isBorrowedBytes m = false := by
  have := borrowed_iff hm
  cases h : isBorrowedBytes m with
  | false => rfl
  | true => exact absurd hv (this.1 h).1

/-- The arguments of a callback. -/
theorem field_args {conv : FTy → CTy} {ffi : MTy → FTy} {w : CTy → CTy} (h : Agrees conv ffi w) :
    ∀ (as : List ArgSrc) (ms : List MArg), (∀ a ∈ as, NoSlice a.ty ∧ a.passBy = .value) →
    listMeaning ArgSrc.meaning as = some ms →
    ms.map (fun m => w (conv (ffi m.ty))) = as.map (fun a => w (rustFfi a.ty)) ∧
      ms.map legacyArg = ms.map (fun m => legacyFfi m.ty)
  | [], ms, _, hm => by
    simp only [listMeaning, Option.some.injEq] at hm
    subst hm; simp
  | a :: as, ms, ho, hm => by
    simp only [listMeaning, Option.bind_eq_some_iff, Option.map_eq_some_iff] at hm
    obtain ⟨m, hm1, ms', hm2, rfl⟩ := hm
    have ih := field_args h as ms' (fun a ha => ho a (by simp [ha])) hm2
    have ha := ho a (by simp)
    simp only [List.map_cons, ih.1, ih.2, (meaning_parts hm1).1, h a.ty ha.1, legacyArg,
      value_not_borrowed hm1 ha.2]
    simp

theorem optional_ret {ffi : MTy → FTy} (o : Option MTy) :
    (match o.map ffi with | some t => FTy.mutReference t | none => FTy.voidPointer) =
      match o with | some t => .mutReference (ffi t) | none => .voidPointer := by
  cases o <;> rfl

end Verif.Abi
