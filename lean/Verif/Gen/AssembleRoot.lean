import Verif.Gen.AssembleLemmas
/-
What the converter builds from what it holds.
-/
namespace Verif.Gen.Assemble
open Verif.Meta

section mapM
variable {α β : Type}

theorem mapM_some {f : α → Option β} : ∀ {l : List α} {r : List β}, l.mapM f = some r →
    ∀ b, b ∈ r ↔ ∃ a ∈ l, f a = some b
  | [], r, h => by
    simp only [List.mapM_nil, Option.pure_def, Option.some.injEq] at h
    subst h
    simp
  | a :: l, r, h => by
    simp only [List.mapM_cons, Option.bind_eq_bind, Option.bind_eq_some_iff, Option.pure_def,
      Option.some.injEq] at h
    obtain ⟨b0, h1, r', h2, rfl⟩ := h
    intro b
    simp only [List.mem_cons, mapM_some h2, exists_eq_or_imp, h1, Option.some.injEq]
    constructor
    · rintro (rfl | h)
      · exact .inl rfl
      · exact .inr h
    · rintro (rfl | h)
      · exact .inl rfl
      · exact .inr h

theorem mapM_all {f : α → Option β} : ∀ {l : List α} {r : List β}, l.mapM f = some r →
    ∀ a ∈ l, (f a).isSome
  | [], _, _ => by simp
  | a :: l, r, h => by
    simp only [List.mapM_cons, Option.bind_eq_bind, Option.bind_eq_some_iff, Option.pure_def,
      Option.some.injEq] at h
    obtain ⟨b0, h1, r', h2, rfl⟩ := h
    intro x hx
    rcases List.mem_cons.1 hx with rfl | hx
    · simp [h1]
    · exact mapM_all h2 x hx

theorem mapM_isSome {f : α → Option β} : ∀ {l : List α}, (∀ a ∈ l, (f a).isSome) →
    (l.mapM f).isSome
  | [], _ => rfl
  | a :: l, h => by
    obtain ⟨b, hb⟩ := Option.isSome_iff_exists.1 (h a (by simp))
    obtain ⟨r, hr⟩ := Option.isSome_iff_exists.1 (mapM_isSome (l := l) fun x hx => h x (by simp [hx]))
    simp [List.mapM_cons, hb, hr]

theorem mapM_map {f : α → Option β} {g : β → α} (hg : ∀ a b, f a = some b → g b = a) :
    ∀ {l : List α} {r : List β}, l.mapM f = some r → r.map g = l
  | [], r, h => by
    simp only [List.mapM_nil, Option.pure_def, Option.some.injEq] at h
    subst h
    rfl
  | a :: l, r, h => by
    simp only [List.mapM_cons, Option.bind_eq_bind, Option.bind_eq_some_iff, Option.pure_def,
      Option.some.injEq] at h
    obtain ⟨b0, h1, r', h2, rfl⟩ := h
    simp [hg a b0 h1, mapM_map hg h2]

theorem mapM_congr {f g : α → Option β} : ∀ {l : List α}, (∀ a ∈ l, f a = g a) → l.mapM f = l.mapM g
  | [], _ => rfl
  | a :: l, h => by
    simp only [List.mapM_cons]
    rw [h a (by simp), mapM_congr fun x hx => h x (by simp [hx])]

end mapM

/-! ### Values of the maps -/

theorem mem_values {c : Conv} {k : Kind} {i : Metadata} :
    i ∈ values c k ↔ ∃ key, (key, i) ∈ c.items ∧ key.kind = k := by
  simp only [values, List.mem_map, mem_sortBy, List.mem_filter, decide_eq_true_eq]
  constructor
  · rintro ⟨e, ⟨h1, h2⟩, rfl⟩
    exact ⟨e.1, h1, h2⟩
  · rintro ⟨key, h1, h2⟩
    exact ⟨_, ⟨h1, h2⟩, rfl⟩

theorem mem_children {c : Conv} {k : Kind} {cr p : String} {i : Metadata} :
    i ∈ children c k cr p ↔
      ∃ key, (key, i) ∈ c.items ∧ key.kind = k ∧ key.crate = cr ∧ key.parent = p := by
  simp only [children, List.mem_map, mem_sortBy, List.mem_filter, decide_eq_true_eq]
  constructor
  · rintro ⟨e, ⟨h1, h2⟩, rfl⟩
    exact ⟨e.1, h1, h2⟩
  · rintro ⟨key, h1, h2⟩
    exact ⟨_, ⟨h1, h2⟩, rfl⟩

/-- Items of the converter are as many as their keys. -/
theorem Inv.nodup_snd {items : List Metadata} {c : Conv} (hi : Inv items c)
    {l : List (Key × Metadata)} (hs : ∀ e ∈ l, e ∈ c.items) (hn : (l.map (·.1)).Nodup) :
    (l.map (·.2)).Nodup := by
  induction l with
  | nil => simp
  | cons e l ih =>
    simp only [List.map_cons, List.nodup_cons] at hn ⊢
    refine ⟨?_, ih (fun x hx => hs x (by simp [hx])) hn.2⟩
    intro hm
    obtain ⟨x, hx, he⟩ := List.mem_map.1 hm
    apply hn.1
    have h1 := (hi.sound e.1 e.2 (hs e (by simp))).2
    have h2 := (hi.sound x.1 x.2 (hs x (by simp [hx]))).2
    rw [he, h1, Option.some.injEq] at h2
    exact List.mem_map.2 ⟨x, hx, h2.symm⟩

theorem sort_keys_nodup {c : Conv} {p : Key × Metadata → Bool} (hn : (c.items.map (·.1)).Nodup) :
    ((sortBy keyLe (c.items.filter p)).map (·.1)).Nodup := by
  have h1 : ((c.items.filter p).map (·.1)).Nodup := hn.sublist (List.filter_sublist.map _)
  exact ((sortBy_perm _).map _).nodup_iff.2 h1

theorem Inv.values_nodup {items : List Metadata} {c : Conv} (hi : Inv items c) (k : Kind) :
    (values c k).Nodup :=
  hi.nodup_snd (fun _ he => (List.mem_filter.1 (mem_sortBy.1 he)).1) (sort_keys_nodup hi.nodup)

theorem Inv.children_nodup {items : List Metadata} {c : Conv} (hi : Inv items c) (k : Kind)
    (cr p : String) : (children c k cr p).Nodup :=
  hi.nodup_snd (fun _ he => (List.mem_filter.1 (mem_sortBy.1 he)).1) (sort_keys_nodup hi.nodup)

/-- The items of a map that does not hold custom types. -/
theorem Inv.mem_items {items : List Metadata} {c : Conv} (hi : Inv items c) {i : Metadata} {k : Key}
    (hk : k.kind ≠ .custom) : (k, i) ∈ c.items ↔ i ∈ items ∧ keyOf i = some k := by
  constructor
  · exact hi.sound k i
  · rintro ⟨h1, h2⟩
    obtain ⟨v, hv, hc⟩ := hi.complete i h1 k h2
    rcases hc with rfl | ⟨hs, _⟩
    · exact hv
    · cases v <;> cases i <;> simp only [SameCustom] at hs
      cases h2
      exact absurd rfl hk

/-! ### Members -/

theorem mapItem_some {c : Conv} {i j : Metadata} (h : mapItem c i = some j) : j = i := by
  rw [mapItem] at h
  split at h
  · exact (Option.some.inj h).symm
  · cases h

theorem mapItems_some {c : Conv} {l r : List Metadata} (h : l.mapM (mapItem c) = some r) : r = l := by
  have := mapM_map (g := fun x => x) (fun a b h => mapItem_some h) h
  simpa using this

theorem childrenFor_some {c : Conv} {k : Kind} {cr n : String} {l : List Metadata}
    (h : childrenFor c k cr n = some l) : l = children c k cr n := mapItems_some h

theorem methodsFor_some {c : Conv} {cr n : String} {l : List Metadata}
    (h : methodsFor c cr n = some l) :
    (l = children c .method cr n ∧ children c .traitMethod cr n = []) ∨
    (l = sortBy (fun a b => decide (indexOf a ≤ indexOf b)) (children c .traitMethod cr n) ∧
      children c .method cr n = []) := by
  simp only [methodsFor] at h
  split at h
  · split at h
    · cases h
    · rename_i hts
      exact .inl ⟨mapItems_some h, by simpa using hts⟩
  · rename_i hms
    exact .inr ⟨mapItems_some h, by simpa using hms⟩

/-- The members of a definition, from the maps. -/
structure FromMaps (c : Conv) (cr n : String) (d : TypeDef) (ctors builtins impls : Bool) : Prop where
  ctors : ctors = true → d.ctors = children c .ctor cr n
  builtins : builtins = true → d.builtins = children c .builtin cr n
  impls : impls = true → d.impls = children c .impl cr n
  methods : methodsFor c cr n = some d.methods

theorem mapDef_item {c : Conv} {i : Metadata} {d : TypeDef} (h : mapDef c i = some d) : d.item = i := by
  cases i <;> simp only [mapDef, reduceCtorEq, bind, Option.bind_eq_some_iff, Option.some.injEq] at h
  case record | enum =>
    obtain ⟨_, _, _, _, _, _, _, h4, rfl⟩ := h
    exact mapItem_some h4
  case object =>
    obtain ⟨_, _, _, _, _, _, _, _, rfl⟩ := h
    rfl
  case callbackInterface =>
    obtain ⟨_, _, rfl⟩ := h
    rfl
  case customType =>
    obtain ⟨_, h, rfl⟩ := h
    exact mapItem_some h

theorem mapDef_members {c : Conv} {i : Metadata} {d : TypeDef} (h : mapDef c i = some d) :
    ∀ cr n, (role i = some (.record cr n) ∨ role i = some (.enum cr n) → FromMaps c cr n d true true false) ∧
      (role i = some (.object cr n) → FromMaps c cr n d true true true) ∧
      (role i = some (.callback cr n) → FromMaps c cr n d false false false) := by
  intro cr n
  cases i <;> simp only [mapDef, reduceCtorEq, bind, Option.bind_eq_some_iff, Option.some.injEq] at h
  case record | enum =>
    obtain ⟨_, h1, _, h2, _, h3, _, h4, rfl⟩ := h
    simp only [role, Option.some.injEq, Role.record.injEq, Role.enum.injEq, reduceCtorEq, or_false,
      false_or, false_implies, and_true]
    rintro ⟨rfl, rfl⟩
    exact ⟨fun _ => childrenFor_some h1, fun _ => childrenFor_some h3, nofun, h2⟩
  case object =>
    obtain ⟨_, h1, _, h2, _, h3, _, h4, rfl⟩ := h
    simp only [role, Option.some.injEq, Role.object.injEq, reduceCtorEq, or_false,
      false_implies, and_true, true_and]
    rintro ⟨rfl, rfl⟩
    exact ⟨fun _ => childrenFor_some h1, fun _ => childrenFor_some h3, fun _ => childrenFor_some h4, h2⟩
  case callbackInterface =>
    obtain ⟨_, h2, rfl⟩ := h
    simp only [role, Option.some.injEq, Role.callback.injEq, reduceCtorEq, or_false,
      false_implies, true_and]
    rintro ⟨rfl, rfl⟩
    exact ⟨nofun, nofun, nofun, h2⟩
  case customType =>
    simp [role]

/-! ### Namespaces -/

theorem undash_eq {a b : String} : a = undash b ↔
    a.toList = b.toList.map fun ch => if ch = '-' then '_' else ch := by
  rw [undash]
  constructor
  · rintro rfl
    simp
  · intro h
    rw [← h]
    simp

/-- `split("::").next()` of a name without `::`. -/
theorem beforeColons_idem : ∀ l : List Char, beforeColons (beforeColons l) = beforeColons l
  | [] => rfl
  | [c] => by simp [beforeColons]
  | c :: c' :: cs => by
    by_cases h : c = ':' ∧ c' = ':'
    · obtain ⟨rfl, rfl⟩ := h
      simp [beforeColons]
    · have ih := beforeColons_idem (c' :: cs)
      have e : beforeColons (c :: c' :: cs) = c :: beforeColons (c' :: cs) := by
        rw [beforeColons.eq_def]
        split
        · rename_i h1; cases h1
        · rename_i h1
          simp only [List.cons.injEq] at h1
          exact absurd ⟨h1.1, h1.2.1⟩ h
        · rename_i h1
          simp only [List.cons.injEq] at h1
          obtain ⟨rfl, rfl⟩ := h1
          rfl
      rw [e, beforeColons.eq_def]
      split
      · rename_i h1; cases h1
      · rename_i h1
        simp only [List.cons.injEq] at h1
        obtain ⟨rfl, h1⟩ := h1
        have hc' : c' ≠ ':' := fun h' => h ⟨rfl, h'⟩
        rw [beforeColons.eq_def] at h1
        split at h1
        · rename_i hx; cases hx
        · rename_i hx
          simp only [List.cons.injEq] at hx
          exact absurd hx.1 hc'
        · rename_i hx
          simp only [List.cons.injEq] at hx h1
          exact absurd (hx.1.trans h1.1) hc'
      · rename_i h1
        simp only [List.cons.injEq] at h1
        obtain ⟨rfl, rfl⟩ := h1
        rw [ih]

theorem crateName_idem (m : String) : crateName (crateName m) = crateName m := by
  simp [crateName, beforeColons_idem]

theorem nsName_sound {items : List Metadata} {c : Conv} (hi : Inv items c) {m ns : String}
    (h : nsName c m = some ns) : Lives items (crateName m) ns :=
  ⟨_, hi.crateSound _ _ h, undash_eq.1 rfl⟩

theorem nsName_complete {items : List Metadata} {c : Conv} (hi : Inv items c) (ho : OneNamespace items)
    {m ns : String} (h : Lives items (crateName m) ns) : nsName c m = some ns := by
  obtain ⟨cr, h1, h2⟩ := h
  have h2 : cr = undash (crateName m) := undash_eq.2 h2
  subst h2
  obtain ⟨n, hn⟩ := Option.isSome_iff_exists.1 (hi.crateComplete _ _ h1)
  have := ho _ _ _ (hi.crateSound _ _ hn) h1
  subst this
  exact hn

theorem nsOf_eq {items : List Metadata} {c : Conv} (hi : Inv items c) (m : String) :
    nsOf c m = nsName c m := by
  rw [nsOf]
  cases h : nsName c m with
  | none => rfl
  | some n =>
    have := get_of_mem hi.nsNodup ((hi.nsMem _ _).2 (hi.crateSound _ _ h))
    simp [this]

theorem mem_place {α : Type} {c : Conv} {f : Metadata → Option α} {k : Kind} {l : List (String × α)}
    (h : place c f k = some l) {ns : String} {a : α} :
    (ns, a) ∈ l ↔ ∃ i ∈ values c k, ∃ cr, itemCrate i = some cr ∧ nsOf c cr = some ns ∧ f i = some a := by
  rw [mapM_some h]
  simp only [Option.bind_eq_some_iff, Option.map_eq_some_iff, Prod.mk.injEq]
  constructor
  · rintro ⟨i, h1, cr, h2, n, h3, x, h4, rfl, rfl⟩
    exact ⟨i, h1, cr, h2, h3, h4⟩
  · rintro ⟨i, h1, cr, h2, h3, h4⟩
    exact ⟨i, h1, cr, h2, ns, h3, a, h4, rfl, rfl⟩

theorem mem_within {α : Type} {n : String} {l : List (String × α)} {a : α} :
    a ∈ within n l ↔ (n, a) ∈ l := by
  simp only [within, List.mem_map, List.mem_filter, decide_eq_true_eq]
  constructor
  · rintro ⟨e, ⟨h1, rfl⟩, rfl⟩
    exact h1
  · intro h
    exact ⟨_, ⟨h, rfl⟩, rfl⟩

theorem place_map {α : Type} {c : Conv} {f : Metadata → Option α} {k : Kind} {l : List (String × α)}
    {g : α → Metadata} (hg : ∀ i a, f i = some a → g a = i) (h : place c f k = some l) :
    l.map (fun e => g e.2) = values c k := by
  refine mapM_map ?_ h
  intro i e he
  simp only [Option.bind_eq_some_iff, Option.map_eq_some_iff] at he
  obtain ⟨_, _, _, _, a, h4, rfl⟩ := he
  exact hg i a h4

theorem within_sublist {α : Type} {n : String} {l : List (String × α)} {g : α → Metadata} :
    ((within n l).map g).Sublist (l.map fun e => g e.2) := by
  rw [within, List.map_map]
  exact List.filter_sublist.map _

/-- The parts of a root. -/
theorem toRoot_some {c : Conv} {root : List Ns} (h : toRoot c = some root) :
    ∃ fs rs es cs is cbs, place c (mapItem c) .func = some fs ∧ place c (mapDef c) .record = some rs ∧
      place c (mapDef c) .enum = some es ∧ place c (mapDef c) .custom = some cs ∧
      place c (mapDef c) .object = some is ∧ place c (mapDef c) .callback = some cbs ∧
      root = (sortBy (fun a b => decide (a.1 ≤ b.1)) c.namespaces).map fun e =>
        { name := e.1, crate := e.2, functions := within e.1 fs
          types := within e.1 (rs ++ es ++ cs ++ is ++ cbs) } := by
  simp only [toRoot, bind, Option.bind_eq_some_iff, Option.some.injEq] at h
  obtain ⟨fs, h1, rs, h2, es, h3, cs, h4, is, h5, cbs, h6, rfl⟩ := h
  exact ⟨fs, rs, es, cs, is, cbs, h1, h2, h3, h4, h5, h6, rfl⟩

/-- The maps that hold types. -/
def typeKinds : List Kind := [.record, .enum, .custom, .object, .callback]

/-- A root, by what is in it. -/
structure RootIs (c : Conv) (root : List Ns) : Prop where
  names : ∀ n cr, (∃ ns ∈ root, ns.name = n ∧ ns.crate = cr) ↔ (n, cr) ∈ c.namespaces
  functions : ∀ ns ∈ root, ∀ i, i ∈ ns.functions ↔ i ∈ values c .func ∧
    ∃ cr, itemCrate i = some cr ∧ nsOf c cr = some ns.name
  functionsNodup : ∀ ns ∈ root, (values c .func).Nodup → ns.functions.Nodup
  functionsPlaced : ∀ i ∈ values c .func, ∃ cr n, itemCrate i = some cr ∧ nsOf c cr = some n
  types : ∀ ns ∈ root, ∀ d, d ∈ ns.types ↔ ∃ k ∈ typeKinds, ∃ i ∈ values c k,
    mapDef c i = some d ∧ ∃ cr, itemCrate i = some cr ∧ nsOf c cr = some ns.name
  typesNodup : ∀ ns ∈ root, ((typeKinds.map (values c)).flatten).Nodup →
    (ns.types.map (·.item)).Nodup
  typesPlaced : ∀ k ∈ typeKinds, ∀ i ∈ values c k,
    ∃ cr n d, itemCrate i = some cr ∧ nsOf c cr = some n ∧ mapDef c i = some d

theorem place_all {α : Type} {c : Conv} {f : Metadata → Option α} {k : Kind} {l : List (String × α)}
    (h : place c f k = some l) : ∀ i ∈ values c k, ∃ cr n a, itemCrate i = some cr ∧
      nsOf c cr = some n ∧ f i = some a := by
  intro i hi
  have := mapM_all h i hi
  obtain ⟨e, he⟩ := Option.isSome_iff_exists.1 this
  simp only [Option.bind_eq_some_iff, Option.map_eq_some_iff] at he
  obtain ⟨cr, h1, n, h2, a, h3, rfl⟩ := he
  exact ⟨cr, n, a, h1, h2, h3⟩

theorem rootIs {c : Conv} {root : List Ns} (h : toRoot c = some root) : RootIs c root := by
  obtain ⟨fs, rs, es, cs, is, cbs, h1, h2, h3, h4, h5, h6, rfl⟩ := toRoot_some h
  have hitem : ∀ i a, mapDef c i = some a → a.item = i := fun i a h => mapDef_item h
  have hid : ∀ i a, mapItem c i = some a → (fun x => x) a = i := fun i a h => mapItem_some h
  constructor
  · intro n cr
    simp only [List.mem_map, mem_sortBy]
    constructor
    · rintro ⟨_, ⟨e, he, rfl⟩, rfl, rfl⟩
      exact he
    · intro he
      exact ⟨_, ⟨_, he, rfl⟩, rfl, rfl⟩
  · intro ns hns i
    simp only [List.mem_map, mem_sortBy] at hns
    obtain ⟨e, he, rfl⟩ := hns
    simp only [mem_within]
    rw [mem_place h1]
    constructor
    · rintro ⟨j, hj, cr, h1, h2, h3⟩
      obtain rfl := mapItem_some h3
      exact ⟨hj, cr, h1, h2⟩
    · rintro ⟨hj, cr, h1', h2⟩
      obtain ⟨_, _, a, _, _, ha⟩ := place_all h1 i hj
      obtain rfl := mapItem_some ha
      exact ⟨a, hj, cr, h1', h2, ha⟩
  · intro ns hns hn
    simp only [List.mem_map, mem_sortBy] at hns
    obtain ⟨e, he, rfl⟩ := hns
    have hs := within_sublist (n := e.1) (l := fs) (g := fun x => x)
    rw [place_map hid h1] at hs
    simpa using hn.sublist hs
  · intro i hi
    obtain ⟨cr, n, a, h1, h2, h3⟩ := place_all h1 i hi
    exact ⟨cr, n, h1, h2⟩
  · intro ns hns d
    simp only [List.mem_map, mem_sortBy] at hns
    obtain ⟨e, he, rfl⟩ := hns
    simp only [mem_within, List.mem_append, mem_place h2, mem_place h3, mem_place h4, mem_place h5,
      mem_place h6, typeKinds, List.mem_cons, List.not_mem_nil, or_false, exists_eq_or_imp,
      exists_eq_left]
    constructor
    · rintro ((((h | h) | h) | h) | h) <;> obtain ⟨i, hi, cr, h1, h2, h3⟩ := h
      · exact .inl ⟨i, hi, h3, cr, h1, h2⟩
      · exact .inr (.inl ⟨i, hi, h3, cr, h1, h2⟩)
      · exact .inr (.inr (.inl ⟨i, hi, h3, cr, h1, h2⟩))
      · exact .inr (.inr (.inr (.inl ⟨i, hi, h3, cr, h1, h2⟩)))
      · exact .inr (.inr (.inr (.inr ⟨i, hi, h3, cr, h1, h2⟩)))
    · rintro (h | h | h | h | h) <;> obtain ⟨i, hi, h3, cr, h1, h2⟩ := h
      · exact .inl (.inl (.inl (.inl ⟨i, hi, cr, h1, h2, h3⟩)))
      · exact .inl (.inl (.inl (.inr ⟨i, hi, cr, h1, h2, h3⟩)))
      · exact .inl (.inl (.inr ⟨i, hi, cr, h1, h2, h3⟩))
      · exact .inl (.inr ⟨i, hi, cr, h1, h2, h3⟩)
      · exact .inr ⟨i, hi, cr, h1, h2, h3⟩
  · intro ns hns hn
    simp only [List.mem_map, mem_sortBy] at hns
    obtain ⟨e, he, rfl⟩ := hns
    have hs := within_sublist (n := e.1) (l := rs ++ es ++ cs ++ is ++ cbs) (g := TypeDef.item)
    simp only [List.map_append] at hs
    rw [place_map hitem h2, place_map hitem h3, place_map hitem h4, place_map hitem h5,
      place_map hitem h6] at hs
    refine List.Nodup.sublist hs ?_
    simpa [typeKinds] using hn
  · intro k hk i hi
    simp only [typeKinds, List.mem_cons, List.not_mem_nil, or_false] at hk
    rcases hk with rfl | rfl | rfl | rfl | rfl
    · exact place_all h2 i hi
    · exact place_all h3 i hi
    · exact place_all h4 i hi
    · exact place_all h5 i hi
    · exact place_all h6 i hi

end Verif.Gen.Assemble
