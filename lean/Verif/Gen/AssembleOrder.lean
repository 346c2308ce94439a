import Verif.Gen.AssembleRoot
/-
The result does not depend on the order of the items, and when there is one.
-/
namespace Verif.Gen.Assemble
open Verif.Meta

theorem nodup_of_keys {κ ν : Type} {l : List (κ × ν)} (h : (l.map (·.1)).Nodup) : l.Nodup := by
  induction l with
  | nil => simp
  | cons e l ih =>
    simp only [List.map_cons, List.nodup_cons] at h ⊢
    exact ⟨fun hm => h.1 (List.mem_map.2 ⟨e, hm, rfl⟩), ih h.2⟩

/-- Two converters that have seen the same items. -/
structure Same (items items' : List Metadata) (c c' : Conv) : Prop where
  mem : ∀ i, i ∈ items ↔ i ∈ items'
  inv : Inv items c
  inv' : Inv items' c'
  oneNs : OneNamespace items
  oneCustom : OneCustom items

theorem Same.symm {items items' : List Metadata} {c c' : Conv} (h : Same items items' c c') :
    Same items' items c' c where
  mem i := (h.mem i).symm
  inv := h.inv'
  inv' := h.inv
  oneNs := fun a n n' h1 h2 => h.oneNs a n n' ((h.mem _).2 h1) ((h.mem _).2 h2)
  oneCustom := fun i hi j hj => h.oneCustom i ((h.mem i).2 hi) j ((h.mem j).2 hj)

theorem Same.sub {items items' : List Metadata} {c c' : Conv} (h : Same items items' c c')
    {e : Key × Metadata} (he : e ∈ c.items) : e ∈ c'.items := by
  obtain ⟨k, v⟩ := e
  obtain ⟨h1, h2⟩ := h.inv.sound k v he
  obtain ⟨w, hw, c1⟩ := h.inv'.complete v ((h.mem v).1 h1) k h2
  obtain ⟨h3, h4⟩ := h.inv'.sound k w hw
  obtain ⟨v2, hv2, c2⟩ := h.inv.complete w ((h.mem w).2 h3) k h4
  obtain rfl := h.inv.entry he hv2
  rcases c1 with rfl | ⟨s1, d1⟩
  · exact hw
  · rcases c2 with rfl | ⟨s2, d2⟩
    · exact hw
    · have : v = w := h.oneCustom v h1 w ((h.mem w).2 h3) s2 (by
        cases hd1 : (customDoc v).isSome <;> cases hd2 : (customDoc w).isSome <;> simp_all)
      subst this
      exact hw

theorem Same.perm {items items' : List Metadata} {c c' : Conv} (h : Same items items' c c') :
    c.items.Perm c'.items :=
  (List.perm_ext_iff_of_nodup (nodup_of_keys h.inv.nodup) (nodup_of_keys h.inv'.nodup)).2
    fun _ => ⟨h.sub, h.symm.sub⟩

theorem filter_unique {items items' : List Metadata} {c c' : Conv} (h : Same items items' c c')
    {p : Key × Metadata → Bool} {k : Kind} (hp : ∀ e, p e → e.1.kind = k) :
    sortBy keyLe (c.items.filter p) = sortBy keyLe (c'.items.filter p) := by
  refine sortBy_unique keyLe_trans keyLe_total (h.perm.filter p) ?_
  intro a ha b hb h1 h2
  rw [List.mem_filter] at ha hb
  have hk := keyLe_antisymm ((hp a ha.2).trans (hp b hb.2).symm) h1 h2
  obtain ⟨ka, a⟩ := a
  obtain ⟨kb, b⟩ := b
  dsimp only at hk
  subst hk
  rw [h.inv.entry ha.1 hb.1]

theorem Same.values {items items' : List Metadata} {c c' : Conv} (h : Same items items' c c')
    (k : Kind) : values c k = values c' k := by
  rw [Assemble.values, Assemble.values, filter_unique h (k := k) (by simp)]

theorem Same.children {items items' : List Metadata} {c c' : Conv} (h : Same items items' c c')
    (k : Kind) (cr p : String) : children c k cr p = children c' k cr p := by
  rw [Assemble.children, Assemble.children, filter_unique h (k := k) (by simp; intros; assumption)]

theorem Same.nsName {items items' : List Metadata} {c c' : Conv} (h : Same items items' c c')
    (m : String) : nsName c m = nsName c' m := by
  cases hn : Assemble.nsName c m with
  | some ns =>
    have := nsName_sound h.inv hn
    obtain ⟨a, h1, h2⟩ := this
    exact (nsName_complete h.inv' h.symm.oneNs ⟨a, (h.mem _).1 h1, h2⟩).symm
  | none =>
    cases hn' : Assemble.nsName c' m with
    | none => rfl
    | some ns =>
      obtain ⟨a, h1, h2⟩ := nsName_sound h.inv' hn'
      have := nsName_complete h.inv h.oneNs ⟨a, (h.mem _).2 h1, h2⟩
      rw [hn] at this
      cases this

theorem mapTy_isSome {c c' : Conv} (h : ∀ m, nsName c m = nsName c' m) (t : MTy) :
    (mapTy c t).isSome = (mapTy c' t).isSome := by
  induction t with
  | map k v ihk ihv =>
    simp only [mapTy]
    cases h1 : mapTy c k <;> cases h2 : mapTy c' k <;> simp_all
  | custom m n b ih =>
    simp only [mapTy, h]
    cases nsName c' m <;> simp_all
  | _ => simp_all [mapTy]

theorem Same.mapItem {items items' : List Metadata} {c c' : Conv} (h : Same items items' c c') :
    mapItem c = mapItem c' := by
  funext i
  have : (fun t => (mapTy c t).isSome) = fun t => (mapTy c' t).isSome :=
    funext fun t => mapTy_isSome h.nsName t
  rw [Assemble.mapItem, Assemble.mapItem, this]

theorem Same.childrenFor {items items' : List Metadata} {c c' : Conv} (h : Same items items' c c')
    (k : Kind) (cr n : String) : childrenFor c k cr n = childrenFor c' k cr n := by
  rw [Assemble.childrenFor, Assemble.childrenFor, h.children, h.mapItem]

theorem Same.methodsFor {items items' : List Metadata} {c c' : Conv} (h : Same items items' c c')
    (cr n : String) : methodsFor c cr n = methodsFor c' cr n := by
  simp only [Assemble.methodsFor, h.children, h.mapItem]

theorem Same.mapDef {items items' : List Metadata} {c c' : Conv} (h : Same items items' c c') :
    mapDef c = mapDef c' := by
  funext i
  cases i <;> simp only [Assemble.mapDef, h.childrenFor, h.methodsFor, h.mapItem]

theorem Same.nsOf {items items' : List Metadata} {c c' : Conv} (h : Same items items' c c') :
    nsOf c = nsOf c' := by
  funext m
  rw [nsOf_eq h.inv, nsOf_eq h.inv', h.nsName]

theorem Same.place {items items' : List Metadata} {c c' : Conv} (h : Same items items' c c')
    {α : Type} (f : Metadata → Option α) (k : Kind) : place c f k = place c' f k := by
  rw [Assemble.place, Assemble.place, h.values, h.nsOf]

theorem str_le_trans (a b c : String × String) (h1 : decide (a.1 ≤ b.1) = true)
    (h2 : decide (b.1 ≤ c.1) = true) : decide (a.1 ≤ c.1) = true := by
  rw [decide_eq_true_eq] at *
  exact Std.le_trans h1 h2

theorem str_le_total (a b : String × String) :
    decide (a.1 ≤ b.1) = true ∨ decide (b.1 ≤ a.1) = true := by
  rw [decide_eq_true_eq, decide_eq_true_eq]
  exact Std.le_total

theorem Same.namespaces {items items' : List Metadata} {c c' : Conv} (h : Same items items' c c') :
    sortBy (fun a b => decide (a.1 ≤ b.1)) c.namespaces =
      sortBy (fun a b => decide (a.1 ≤ b.1)) c'.namespaces := by
  have hp : c.namespaces.Perm c'.namespaces :=
    (List.perm_ext_iff_of_nodup (nodup_of_keys h.inv.nsNodup) (nodup_of_keys h.inv'.nsNodup)).2
      fun e => by
        obtain ⟨n, cr⟩ := e
        rw [h.inv.nsMem, h.inv'.nsMem, h.mem]
  refine sortBy_unique str_le_trans str_le_total hp ?_
  intro a ha b hb h1 h2
  rw [decide_eq_true_eq] at h1 h2
  have he := Std.le_antisymm h1 h2
  obtain ⟨ka, a⟩ := a
  obtain ⟨kb, b⟩ := b
  dsimp only at he
  subst he
  have := (get_of_mem h.inv.nsNodup ha).symm.trans (get_of_mem h.inv.nsNodup hb)
  simp_all

theorem Same.toRoot {items items' : List Metadata} {c c' : Conv} (h : Same items items' c c') :
    toRoot c = toRoot c' := by
  simp only [Assemble.toRoot, h.mapItem, h.mapDef, h.place, h.namespaces]

theorem assemble_order {items items' : List Metadata} (hm : ∀ i, i ∈ items ↔ i ∈ items')
    (h1 : OneNamespace items) (h2 : OneCustom items) : assemble items = assemble items' := by
  have key : (addItems {} items).isSome = (addItems {} items').isSome := by
    rw [Bool.eq_iff_iff, addItems_isSome, addItems_isSome]
    exact ⟨fun h => h.mono fun i hi => (hm i).2 hi, fun h => h.mono fun i hi => (hm i).1 hi⟩
  rw [assemble, assemble]
  cases ha : addItems {} items with
  | none =>
    rw [ha] at key
    have : addItems {} items' = none := by simpa using key.symm
    rw [this]
  | some c =>
    rw [ha] at key
    obtain ⟨c', hc'⟩ := Option.isSome_iff_exists.1 key.symm
    rw [hc']
    exact Same.toRoot ⟨hm, inv_of ha, inv_of hc', h1, h2⟩

/-! ### When there is a result -/

mutual
  theorem mem_litTys : ∀ (l : MLit) (t : MTy), t ∈ litTys l ↔ InDefault (.literal l) t
    | .uint n r t', t => by
      simp only [litTys, List.mem_singleton]
      exact ⟨fun h => h ▸ .uint n r t', fun h => by cases h; rfl⟩
    | .int n r t', t => by
      simp only [litTys, List.mem_singleton]
      exact ⟨fun h => h ▸ .int n r t', fun h => by cases h; rfl⟩
    | .float s t', t => by
      simp only [litTys, List.mem_singleton]
      exact ⟨fun h => h ▸ .float s t', fun h => by cases h; rfl⟩
    | .optSome d, t => by
      simp only [litTys]
      rw [mem_defTys d t]
      exact ⟨fun h => .optSome d t h, fun h => by cases h; assumption⟩
    | .boolean _, t => by simp only [litTys, List.not_mem_nil, false_iff]; nofun
    | .string _, t => by simp only [litTys, List.not_mem_nil, false_iff]; nofun
    | .emptySequence, t => by simp only [litTys, List.not_mem_nil, false_iff]; nofun
    | .emptyMap, t => by simp only [litTys, List.not_mem_nil, false_iff]; nofun
    | .emptySet, t => by simp only [litTys, List.not_mem_nil, false_iff]; nofun
    | .optNone, t => by simp only [litTys, List.not_mem_nil, false_iff]; nofun
  theorem mem_defTys : ∀ (d : MDef) (t : MTy), t ∈ defTys d ↔ InDefault d t
    | .default, t => by simp only [defTys, List.not_mem_nil, false_iff]; nofun
    | .literal l, t => by rw [defTys, mem_litTys l t]
end

theorem mem_optDefTys {d : Option MDef} {t : MTy} :
    t ∈ optDefTys d ↔ ∃ d', d = some d' ∧ InDefault d' t := by
  cases d <;> simp [optDefTys, mem_defTys]

theorem mem_argTys {as : List MArg} {t : MTy} : t ∈ argTys as ↔ InArgs as t := by
  simp only [argTys, List.mem_flatMap, List.mem_cons, mem_optDefTys, InArgs, eq_comm]

theorem mem_fieldTys {fs : List MField} {t : MTy} : t ∈ fieldTys fs ↔ InFields fs t := by
  simp only [fieldTys, List.mem_flatMap, List.mem_cons, mem_optDefTys, InFields, eq_comm]

theorem mem_fnTys {f : MFn} {t : MTy} : t ∈ fnTys f ↔ InFn f t := by
  simp only [fnTys, List.mem_append, mem_argTys, Option.mem_toList, InFn, or_assoc]

theorem mem_itemTys {i : Metadata} {t : MTy} : t ∈ itemTys i ↔ Mentions i t := by
  cases i <;> simp only [itemTys, Mentions, mem_fnTys, mem_argTys, mem_fieldTys, List.mem_append,
    Option.mem_toList, List.not_mem_nil, List.mem_cons, or_false]
  case uniffiTrait u => cases u <;> simp only [itemTys, Mentions, mem_fnTys, List.mem_append, firstMethod]
  case enum =>
    simp only [List.mem_flatMap, List.mem_append, mem_fieldTys]
    refine or_congr Iff.rfl (exists_congr fun v => and_congr Iff.rfl ?_)
    rw [or_comm]
    refine or_congr Iff.rfl ?_
    cases v.discr <;> simp [mem_litTys]

theorem mapTy_some {items : List Metadata} {c : Conv} (hi : Inv items c) (t : MTy)
    (h : ∀ m, Names t m → Known items m) : (mapTy c t).isSome := by
  have hk : ∀ m, Known items m → (nsName c m).isSome := by
    rintro m ⟨ns, cr, h1, h2⟩
    rw [nsName, ← undash_eq.2 h2]
    exact hi.crateComplete _ _ h1
  induction t with
  | map k v ihk ihv =>
    obtain ⟨a, ha⟩ := Option.isSome_iff_exists.1 (ihk fun m hm => h m (.key _ _ _ hm))
    obtain ⟨b, hb⟩ := Option.isSome_iff_exists.1 (ihv fun m hm => h m (.value _ _ _ hm))
    simp [mapTy, ha, hb]
  | custom m n b ih =>
    obtain ⟨a, ha⟩ := Option.isSome_iff_exists.1 (hk m (h m (.custom _ _ _)))
    obtain ⟨b, hb⟩ := Option.isSome_iff_exists.1 (ih fun m hm => h m (.builtin _ _ _ _ hm))
    simp [mapTy, ha, hb]
  | optional t ih => simpa [mapTy] using ih fun m hm => h m (.optional _ _ hm)
  | box t ih => simpa [mapTy] using ih fun m hm => h m (.box _ _ hm)
  | sequence t ih => simpa [mapTy] using ih fun m hm => h m (.sequence _ _ hm)
  | set t ih => simpa [mapTy] using ih fun m hm => h m (.set _ _ hm)
  | object m n i => simpa [mapTy] using hk m (h m (.object _ _ _))
  | record m n => simpa [mapTy] using hk m (h m (.record _ _))
  | enum m n => simpa [mapTy] using hk m (h m (.enum _ _))
  | callbackInterface m n => simpa [mapTy] using hk m (h m (.callbackInterface _ _))
  | _ => rfl

theorem mapItem_ok {items : List Metadata} {c : Conv} (hi : Inv items c) (hk : AllKnown items)
    {i : Metadata} (h : i ∈ items) : mapItem c i = some i := by
  rw [mapItem, if_pos]
  rw [List.all_eq_true]
  intro t ht
  exact mapTy_some hi t (hk.mentioned i h t (mem_itemTys.1 ht))

theorem mapItems_ok {items : List Metadata} {c : Conv} (hi : Inv items c) (hk : AllKnown items)
    {l : List Metadata} (h : ∀ i ∈ l, i ∈ items) : (l.mapM (mapItem c)).isSome :=
  mapM_isSome fun a ha => by rw [mapItem_ok hi hk (h a ha)]; rfl

theorem children_mem {items : List Metadata} {c : Conv} (hi : Inv items c) {k : Kind} {cr n : String}
    {i : Metadata} (h : i ∈ children c k cr n) : i ∈ items := by
  obtain ⟨key, h1, _⟩ := mem_children.1 h
  exact (hi.sound _ _ h1).1

theorem kind_role {i : Metadata} {k : Key} (h : keyOf i = some k) :
    (k.kind = .method → ∃ x, role i = some (.method k.crate k.parent x)) ∧
    (k.kind = .traitMethod → ∃ x, role i = some (.traitMethod k.crate k.parent x)) ∧
    (k.kind = .ctor → ∃ x, role i = some (.ctor k.crate k.parent x)) ∧
    (k.kind = .builtin → ∃ x, role i = some (.builtin k.crate k.parent x)) ∧
    (k.kind = .impl → ∃ x, role i = some (.impl k.crate k.parent x)) ∧
    (k.kind = .func → ∃ x, role i = some (.function k.crate x)) ∧
    (k.kind = .record → ∃ x, role i = some (.record k.crate x)) ∧
    (k.kind = .enum → ∃ x, role i = some (.enum k.crate x)) ∧
    (k.kind = .custom → ∃ x, role i = some (.custom k.crate x)) ∧
    (k.kind = .object → ∃ x, role i = some (.object k.crate x)) ∧
    (k.kind = .callback → ∃ x, role i = some (.callback k.crate x)) := by
  obtain ⟨r, hr, rfl⟩ := keyOf_some.1 h
  rw [hr]
  cases r <;> simp [roleKey]

theorem methodsFor_ok {items : List Metadata} {c : Conv} (hi : Inv items c) (hk : AllKnown items)
    (hn : NoMix items) (cr n : String) : (methodsFor c cr n).isSome := by
  simp only [methodsFor]
  split
  · rename_i hms
    split
    · rename_i hts
      obtain ⟨a, ha⟩ := List.exists_mem_of_ne_nil _ hms
      obtain ⟨b, hb⟩ := List.exists_mem_of_ne_nil _ hts
      obtain ⟨ka, h1, h2, rfl, rfl⟩ := mem_children.1 ha
      obtain ⟨kb, h3, h4, h5, h6⟩ := mem_children.1 hb
      obtain ⟨x, hx⟩ := (kind_role (hi.sound _ _ h1).2).1 h2
      obtain ⟨y, hy⟩ := (kind_role (hi.sound _ _ h3).2).2.1 h4
      rw [h5, h6] at hy
      exact absurd hy (hn a (hi.sound _ _ h1).1 b (hi.sound _ _ h3).1 _ _ x y hx)
    · exact mapItems_ok hi hk fun i h => children_mem hi h
  · exact mapItems_ok hi hk fun i h => children_mem hi (mem_sortBy.1 h)

theorem mapDef_ok {items : List Metadata} {c : Conv} (hi : Inv items c) (hk : AllKnown items)
    (hn : NoMix items) {i : Metadata} (h : i ∈ items) (hd : (definedType i).isSome) :
    (mapDef c i).isSome := by
  have hc : ∀ k cr n, (childrenFor c k cr n).isSome := fun k cr n =>
    mapItems_ok hi hk fun i h => children_mem hi h
  cases i <;> simp only [definedType, role, Option.isSome_none, Bool.false_eq_true] at hd
  case record m n o f d =>
    obtain ⟨a, ha⟩ := Option.isSome_iff_exists.1 (hc .ctor (crateName m) n)
    obtain ⟨b, hb⟩ := Option.isSome_iff_exists.1 (methodsFor_ok hi hk hn (crateName m) n)
    obtain ⟨e, he⟩ := Option.isSome_iff_exists.1 (hc .builtin (crateName m) n)
    simp [mapDef, ha, hb, he, mapItem_ok hi hk h]
  case enum m n o s dt vs ne d =>
    obtain ⟨a, ha⟩ := Option.isSome_iff_exists.1 (hc .ctor (crateName m) n)
    obtain ⟨b, hb⟩ := Option.isSome_iff_exists.1 (methodsFor_ok hi hk hn (crateName m) n)
    obtain ⟨e, he⟩ := Option.isSome_iff_exists.1 (hc .builtin (crateName m) n)
    simp [mapDef, ha, hb, he, mapItem_ok hi hk h]
  case object m n o im d =>
    obtain ⟨a, ha⟩ := Option.isSome_iff_exists.1 (hc .ctor (crateName m) n)
    obtain ⟨b, hb⟩ := Option.isSome_iff_exists.1 (methodsFor_ok hi hk hn (crateName m) n)
    obtain ⟨e, he⟩ := Option.isSome_iff_exists.1 (hc .builtin (crateName m) n)
    obtain ⟨g, hg⟩ := Option.isSome_iff_exists.1 (hc .impl (crateName m) n)
    simp [mapDef, ha, hb, he, hg]
  case callbackInterface m n d =>
    obtain ⟨b, hb⟩ := Option.isSome_iff_exists.1 (methodsFor_ok hi hk hn (crateName m) n)
    simp [mapDef, hb]
  case customType =>
    simp [mapDef, mapItem_ok hi hk h]
  case uniffiTrait u => cases u <;> simp at hd
  case objectTraitImpl t tr => cases t <;> simp [role] at hd

theorem roleCrate_idem {i : Metadata} {k : Key} (h : keyOf i = some k) : crateName k.crate = k.crate := by
  cases i <;> simp only [keyOf, reduceCtorEq, Option.some.injEq, Option.map_eq_some_iff] at h
  case objectTraitImpl =>
    obtain ⟨_, _, rfl⟩ := h
    exact crateName_idem _
  all_goals subst h; exact crateName_idem _

theorem place_ok {items : List Metadata} {c : Conv} (hi : Inv items c) (hk : AllKnown items)
    {α : Type} {f : Metadata → Option α} {k : Kind}
    (hp : ∀ i ∈ items, ∀ key, keyOf i = some key → key.kind = k → Placed i key.crate)
    (hf : ∀ i ∈ items, ∀ key, keyOf i = some key → key.kind = k → (f i).isSome) :
    (place c f k).isSome := by
  refine mapM_isSome ?_
  intro i h
  obtain ⟨key, h1, h2⟩ := mem_values.1 h
  obtain ⟨h3, h4⟩ := hi.sound _ _ h1
  obtain ⟨a, ha⟩ := Option.isSome_iff_exists.1 (hf i h3 key h4 h2)
  obtain ⟨ns, cr, h5, h6⟩ := hk.placed i h3 key.crate (hp i h3 key h4 h2)
  have h7 : (nsOf c key.crate).isSome := by
    rw [nsOf_eq hi, nsName, roleCrate_idem h4, ← undash_eq.2 h6]
    exact hi.crateComplete _ _ h5
  obtain ⟨n, hn⟩ := Option.isSome_iff_exists.1 h7
  simp [itemCrate, h4, hn, ha]

theorem toRoot_ok {items : List Metadata} {c : Conv} (hi : Inv items c) (hk : AllKnown items)
    (hn : NoMix items) : (toRoot c).isSome := by
  have h1 : (place c (mapItem c) .func).isSome := by
    refine place_ok hi hk ?_ ?_
    · intro i _ key h2 h3
      obtain ⟨x, hx⟩ := (kind_role h2).2.2.2.2.2.1 h3
      exact .inl ⟨x, hx⟩
    · intro i h _ _ _
      rw [mapItem_ok hi hk h]
      rfl
  have hd : ∀ k ∈ typeKinds, ∀ i key, keyOf i = some key → key.kind = k →
      ∃ n, definedType i = some (key.crate, n) := by
    intro k hk i key h2 h3
    have hr := kind_role h2
    simp only [typeKinds, List.mem_cons, List.not_mem_nil, or_false] at hk
    rw [definedType]
    rcases hk with rfl | rfl | rfl | rfl | rfl
    · obtain ⟨x, hx⟩ := hr.2.2.2.2.2.2.1 h3; exact ⟨x, by rw [hx]⟩
    · obtain ⟨x, hx⟩ := hr.2.2.2.2.2.2.2.1 h3; exact ⟨x, by rw [hx]⟩
    · obtain ⟨x, hx⟩ := hr.2.2.2.2.2.2.2.2.1 h3; exact ⟨x, by rw [hx]⟩
    · obtain ⟨x, hx⟩ := hr.2.2.2.2.2.2.2.2.2.1 h3; exact ⟨x, by rw [hx]⟩
    · obtain ⟨x, hx⟩ := hr.2.2.2.2.2.2.2.2.2.2 h3; exact ⟨x, by rw [hx]⟩
  have h2 : ∀ k ∈ typeKinds, (place c (mapDef c) k).isSome := by
    intro k hkk
    refine place_ok hi hk ?_ ?_
    · intro i _ key h2 h3
      exact .inr (hd k hkk i key h2 h3)
    · intro i h key h2 h3
      obtain ⟨n, hx⟩ := hd k hkk i key h2 h3
      exact mapDef_ok hi hk hn h (by rw [hx]; rfl)
  obtain ⟨fs, h1⟩ := Option.isSome_iff_exists.1 h1
  obtain ⟨rs, h3⟩ := Option.isSome_iff_exists.1 (h2 .record (by simp [typeKinds]))
  obtain ⟨es, h4⟩ := Option.isSome_iff_exists.1 (h2 .enum (by simp [typeKinds]))
  obtain ⟨cs, h5⟩ := Option.isSome_iff_exists.1 (h2 .custom (by simp [typeKinds]))
  obtain ⟨is, h6⟩ := Option.isSome_iff_exists.1 (h2 .object (by simp [typeKinds]))
  obtain ⟨cb, h7⟩ := Option.isSome_iff_exists.1 (h2 .callback (by simp [typeKinds]))
  simp [toRoot, h1, h3, h4, h5, h6, h7]

end Verif.Gen.Assemble
