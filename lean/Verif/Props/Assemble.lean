import Verif.Gen.AssembleFinal
import Verif.Gen.AssembleFits
/-
C66: the interface assembled from metadata items holds exactly what the items say.
-/
namespace Verif.Props.Assemble
open Verif.Meta Verif.Gen.Assemble

variable {items : List Metadata} {root : List Ns}

/-- The parts of an assembled interface. -/
theorem parts (h : assemble items = some root) : ∃ c, addItems {} items = some c ∧ Inv items c ∧
    Noted items c.origNames ∧ toRoot c = some root ∧ RootIs c root := by
  simp only [assemble, Option.bind_eq_some_iff] at h
  obtain ⟨c, h1, h2⟩ := h
  exact ⟨c, h1, inv_of h1, noted_of h1, h2, rootIs h2⟩

/-- Namespaces are those of the items, with their crates, each once and in the order of their names. -/
theorem C66_namespaces (h : assemble items = some root) :
    (∀ n cr, (∃ ns ∈ root, ns.name = n ∧ ns.crate = cr) ↔ Metadata.namespace_ cr n ∈ items) ∧
    (root.map (·.name)).Nodup ∧ (root.map (·.name)).Pairwise (· ≤ ·) := by
  obtain ⟨c, _, hi, _, ht, hr⟩ := parts h
  refine ⟨fun n cr => (hr.names n cr).trans (hi.nsMem n cr), ?_⟩
  obtain ⟨_, _, _, _, _, _, _, _, _, _, _, _, rfl⟩ := toRoot_some ht
  rw [List.map_map]
  constructor
  · exact ((sortBy_perm _).map _).nodup_iff.2 hi.nsNodup
  · exact List.pairwise_map.2 ((sortBy_sorted str_le_trans str_le_total c.namespaces).imp
      fun h => of_decide_eq_true h)

/-- A crate given in an item lives in at most one namespace, if none is given two. -/
theorem lives_iff (h : assemble items = some root) {c : Conv} (hc : addItems {} items = some c)
    (ho : OneNamespace items) {i : Metadata} {cr n : String} (hi : crateOf i = some cr) :
    nsOf c cr = some n ↔ Lives items cr n := by
  have inv := inv_of hc
  rw [nsOf_eq inv]
  have hid := crateOf_idem hi
  constructor
  · intro hn
    simpa [hid] using nsName_sound inv hn
  · intro hl
    exact nsName_complete inv ho (by rwa [hid])

/-- A namespace holds exactly the functions of its crate, each once. -/
theorem C66_functions (h : assemble items = some root) (ho : OneNamespace items) :
    ∀ ns ∈ root, ns.functions.Nodup ∧ ∀ i, i ∈ ns.functions ↔
      i ∈ items ∧ ∃ cr n, role i = some (.function cr n) ∧ Lives items cr ns.name := by
  obtain ⟨c, hc, hi, _, ht, hr⟩ := parts h
  intro ns hns
  refine ⟨hr.functionsNodup ns hns (hi.values_nodup _), ?_⟩
  intro i
  rw [hr.functions ns hns, hi.mem_funcs]
  constructor
  · rintro ⟨⟨h1, cr, n, hrole⟩, cr', h2, h3⟩
    rw [itemCrate_eq] at h2
    have : cr' = cr := by
      rw [roleKey_crate hrole] at h2
      exact (Option.some.inj h2).symm
    subst this
    exact ⟨h1, cr', n, hrole, (lives_iff h hc ho h2).1 h3⟩
  · rintro ⟨h1, cr, n, hrole, hl⟩
    have h2 := roleKey_crate hrole
    exact ⟨⟨h1, cr, n, hrole⟩, cr, (itemCrate_eq i).trans h2, (lives_iff h hc ho h2).2 hl⟩

/-- Every function is in a namespace. -/
theorem C66_functions_placed (h : assemble items = some root) {i : Metadata} (hi : i ∈ items)
    {cr n : String} (hf : role i = some (.function cr n)) : ∃ ns ∈ root, i ∈ ns.functions := by
  obtain ⟨c, hc, inv, _, ht, hr⟩ := parts h
  have hv := inv.mem_funcs.2 ⟨hi, cr, n, hf⟩
  obtain ⟨cr', ns, h1, h2⟩ := hr.functionsPlaced i hv
  have hmem : ∃ N ∈ root, N.name = ns := by
    rw [nsOf_eq inv] at h2
    obtain ⟨x, hx, _⟩ := nsName_sound inv h2
    obtain ⟨N, hN, h3, _⟩ := (hr.names ns x).2 ((inv.nsMem _ _).2 hx)
    exact ⟨N, hN, h3⟩
  obtain ⟨N, hN, rfl⟩ := hmem
  exact ⟨N, hN, (hr.functions N hN i).2 ⟨hv, cr', h1, h2⟩⟩

/-- The types of a namespace are types of the items that live there, each once. Every item that defines
a type there is one of them. A custom type may be described twice; then the description with
documentation is kept. -/
theorem C66_types (h : assemble items = some root) (ho : OneNamespace items) : ∀ ns ∈ root,
    (ns.types.map (·.item)).Nodup ∧
    (∀ d ∈ ns.types, ∀ d' ∈ ns.types, role d.item = role d'.item → d = d') ∧
    (∀ d ∈ ns.types, d.item ∈ items ∧
      ∃ cr n, definedType d.item = some (cr, n) ∧ Lives items cr ns.name) ∧
    (∀ i ∈ items, ∀ cr n, definedType i = some (cr, n) → Lives items cr ns.name →
      ∃ d ∈ ns.types, d.item = i ∨
        (SameCustom d.item i ∧ ((customDoc i).isSome → (customDoc d.item).isSome))) := by
  obtain ⟨c, hc, inv, _, ht, hr⟩ := parts h
  intro ns hns
  refine ⟨hr.typesNodup ns hns inv.kinds_nodup, ?_, ?_, ?_⟩
  · intro d hd d' hd' he
    obtain ⟨k, hk, i, hi, h1, _⟩ := (hr.types ns hns d).1 hd
    obtain ⟨k', hk', i', hi', h1', _⟩ := (hr.types ns hns d').1 hd'
    rw [mapDef_item h1, mapDef_item h1'] at he
    have hkey := keyOf_eq_iff.2 he
    obtain ⟨a, ha, _⟩ := mem_values.1 hi
    obtain ⟨b, hb, _⟩ := mem_values.1 hi'
    rw [(inv.sound _ _ ha).2, (inv.sound _ _ hb).2, Option.some.injEq] at hkey
    subst hkey
    obtain rfl := inv.entry ha hb
    rw [h1] at h1'
    exact Option.some.inj h1'
  · intro d hd
    obtain ⟨k, hk, i, hi, h1, cr, h2, h3⟩ := (hr.types ns hns d).1 hd
    obtain ⟨p1, _, p3⟩ := inv.types_sound hk hi
    obtain ⟨n, hn⟩ := p3 cr h2
    rw [itemCrate_eq] at h2
    rw [mapDef_item h1]
    exact ⟨p1, cr, n, hn, (lives_iff h hc ho h2).1 h3⟩
  · intro i hi cr n hdef hl
    obtain ⟨k, hk, j, hj, hcov, hcr⟩ := inv.types_complete hi hdef
    obtain ⟨_, _, d, _, _, hd⟩ := hr.typesPlaced k hk j hj
    refine ⟨d, (hr.types ns hns d).2 ⟨k, hk, j, hj, hd, cr, hcr, ?_⟩, ?_⟩
    · rw [itemCrate_eq] at hcr
      exact (lives_iff h hc ho hcr).2 hl
    · rw [mapDef_item hd]
      exact hcov

/-- Every type is in a namespace. -/
theorem C66_types_placed (h : assemble items = some root) {i : Metadata} (hi : i ∈ items)
    (hf : (definedType i).isSome) : ∃ ns ∈ root, ∃ d ∈ ns.types, d.item = i ∨
      (SameCustom d.item i ∧ ((customDoc i).isSome → (customDoc d.item).isSome)) := by
  obtain ⟨c, hc, inv, _, ht, hr⟩ := parts h
  obtain ⟨⟨cr, n⟩, hdef⟩ := Option.isSome_iff_exists.1 hf
  obtain ⟨k, hk, j, hj, hcov, hcr⟩ := inv.types_complete hi hdef
  obtain ⟨cr', ns, d, h1, h2, hd⟩ := hr.typesPlaced k hk j hj
  have hmem : ∃ N ∈ root, N.name = ns := by
    rw [nsOf_eq inv] at h2
    obtain ⟨x, hx, _⟩ := nsName_sound inv h2
    obtain ⟨N, hN, h3, _⟩ := (hr.names ns x).2 ((inv.nsMem _ _).2 hx)
    exact ⟨N, hN, h3⟩
  obtain ⟨N, hN, rfl⟩ := hmem
  exact ⟨N, hN, d, (hr.types N hN d).2 ⟨k, hk, j, hj, hd, cr', h1, h2⟩, by rw [mapDef_item hd]; exact hcov⟩

/-- The constructors and built-in traits of records, enums and objects are exactly those of the items
that name the type, each once and in the order of their names. -/
theorem C66_constructors (h : assemble items = some root) : ∀ ns ∈ root, ∀ d ∈ ns.types, ∀ cr n,
    role d.item = some (.record cr n) ∨ role d.item = some (.enum cr n) ∨
      role d.item = some (.object cr n) →
    (d.ctors.Nodup ∧ d.ctors.Pairwise (fun a b => memberName a ≤ memberName b) ∧
      ∀ i, i ∈ d.ctors ↔ i ∈ items ∧ ∃ x, role i = some (.ctor cr n x)) ∧
    (d.builtins.Nodup ∧ d.builtins.Pairwise (fun a b => memberName a ≤ memberName b) ∧
      ∀ i, i ∈ d.builtins ↔ i ∈ items ∧ ∃ x, role i = some (.builtin cr n x)) := by
  obtain ⟨c, hc, inv, _, ht, hr⟩ := parts h
  intro ns hns d hd cr n hrole
  obtain ⟨k, hk, i, hi, h1, _⟩ := (hr.types ns hns d).1 hd
  have hm := mapDef_members h1 cr n
  rw [← mapDef_item h1] at hm
  have : d.ctors = children c .ctor cr n ∧ d.builtins = children c .builtin cr n := by
    rcases hrole with hrole | hrole | hrole
    · have := hm.1 (.inl hrole)
      exact ⟨this.ctors rfl, this.builtins rfl⟩
    · have := hm.1 (.inr hrole)
      exact ⟨this.ctors rfl, this.builtins rfl⟩
    · have := hm.2.1 hrole
      exact ⟨this.ctors rfl, this.builtins rfl⟩
  rw [this.1, this.2]
  exact ⟨⟨inv.children_nodup _ _ _, inv.ctors_sorted _ _, fun i => inv.mem_ctors⟩,
    inv.children_nodup _ _ _, inv.builtins_sorted _ _, fun i => inv.mem_builtins⟩

/-- The methods of records, enums, objects and callback interfaces are exactly those of the items that
name the type, each once. Methods come in the order of their names, methods of traits in the order of
their positions. -/
theorem C66_methods (h : assemble items = some root) : ∀ ns ∈ root, ∀ d ∈ ns.types, ∀ cr n,
    role d.item = some (.record cr n) ∨ role d.item = some (.enum cr n) ∨
      role d.item = some (.object cr n) ∨ role d.item = some (.callback cr n) →
    d.methods.Nodup ∧ d.methods.Pairwise Before ∧
      ∀ i, i ∈ d.methods ↔
        i ∈ items ∧ ∃ x, role i = some (.method cr n x) ∨ role i = some (.traitMethod cr n x) := by
  obtain ⟨c, hc, inv, _, ht, hr⟩ := parts h
  intro ns hns d hd cr n hrole
  obtain ⟨k, hk, i, hi, h1, _⟩ := (hr.types ns hns d).1 hd
  have hm := mapDef_members h1 cr n
  rw [← mapDef_item h1] at hm
  have : methodsFor c cr n = some d.methods := by
    rcases hrole with hrole | hrole | hrole | hrole
    · exact (hm.1 (.inl hrole)).methods
    · exact (hm.1 (.inr hrole)).methods
    · exact (hm.2.1 hrole).methods
    · exact (hm.2.2 hrole).methods
  exact ⟨inv.methodsFor_nodup this, inv.methods_sorted this, fun i => inv.mem_methodsFor this⟩

/-- The traits an object implements are exactly those of the items that name it. -/
theorem C66_impls (h : assemble items = some root) : ∀ ns ∈ root, ∀ d ∈ ns.types, ∀ cr n,
    role d.item = some (.object cr n) →
    d.impls.Nodup ∧ ∀ i, i ∈ d.impls ↔ i ∈ items ∧ ∃ x, role i = some (.impl cr n x) := by
  obtain ⟨c, hc, inv, _, ht, hr⟩ := parts h
  intro ns hns d hd cr n hrole
  obtain ⟨k, hk, i, hi, h1, _⟩ := (hr.types ns hns d).1 hd
  have hm := mapDef_members h1 cr n
  rw [← mapDef_item h1] at hm
  rw [(hm.2.1 hrole).impls rfl]
  exact ⟨inv.children_nodup _ _ _, fun i => inv.mem_impls⟩

/-- The interface does not depend on the order in which the items are read, nor on repetitions. -/
theorem C66_order {items' : List Metadata} (hm : ∀ i, i ∈ items ↔ i ∈ items') (ho : OneNamespace items)
    (hc : OneCustom items) : assemble items = assemble items' := assemble_order hm ho hc

/-- Items that contradict each other are refused. -/
theorem C66_refused (h : ¬ Consistent items) : assemble items = none := by
  rw [assemble]
  cases hc : addItems {} items with
  | none => rfl
  | some c => exact absurd (inv_of hc).consistent h

/-- Items that do not contradict each other and refer to crates with namespaces are accepted, unless a
type has both methods and methods of a trait. -/
theorem C66_accepted (h : Consistent items) (hk : AllKnown items) (hn : NoMix items) :
    (assemble items).isSome := by
  obtain ⟨c, hc⟩ := Option.isSome_iff_exists.1 (addItems_isSome.2 h)
  rw [assemble, hc]
  exact toRoot_ok (inv_of hc) hk hn

/-- A type of an item keeps its shape in the tree; definitions are found in the namespace of their crate,
under their exported names, with their Rust names. -/
theorem C66_references {t : MTy} {t' : ITy} (h : typeRef items t = some t') : Refers items t t' := by
  simp only [typeRef, Option.bind_eq_some_iff] at h
  obtain ⟨c, hc, h⟩ := h
  exact mapTy_refers (inv_of hc) (noted_of hc) h

/-- If no two definitions of a module share an exported name, the Rust name in a reference is that of
the definition. -/
theorem C66_rust_name (ho : OneOrig items) {i : Metadata} (hi : i ∈ items) {m n o : String}
    {w : Option String} (hw : written i = some (m, n, w)) (h : RustName items m n o) :
    o = match w with | some o' => o' | none => n := by
  rcases h with ⟨j, hj, hj'⟩ | ⟨rfl, hno⟩
  · obtain rfl := ho i hi j hj m n w (some o) hw hj'
    rfl
  · cases w with
    | none => rfl
    | some o' => exact absurd hw (hno i hi o')

/-- Everything functions, types and members mention is found. -/
theorem C66_resolved (h : assemble items = some root) : ∀ ns ∈ root,
    (∀ i ∈ ns.functions, ∀ t, Mentions i t → (typeRef items t).isSome) ∧
    (∀ d ∈ ns.types, ∀ i, i = d.item ∨ i ∈ d.ctors ∨ i ∈ d.methods ∨ i ∈ d.builtins ∨ i ∈ d.impls →
      ∀ t, Mentions i t → (typeRef items t).isSome) := by
  obtain ⟨c, hc, inv, _, ht, hr⟩ := parts h
  have key : ∀ {i j}, mapItem c i = some j → ∀ t, Mentions j t → (typeRef items t).isSome := by
    intro i j hm t hmt
    obtain rfl := mapItem_some hm
    rw [mapItem] at hm
    split at hm
    · rename_i hall
      rw [List.all_eq_true] at hall
      rw [typeRef, hc]
      exact hall t (mem_itemTys.2 hmt)
    · cases hm
  have keys : ∀ {l r : List Metadata}, l.mapM (mapItem c) = some r → ∀ i ∈ r, ∀ t, Mentions i t → (typeRef items t).isSome := by
    intro l r hl i hi
    obtain ⟨j, _, hj⟩ := (mapM_some hl i).1 hi
    exact key hj
  have keysM : ∀ {cr n r}, methodsFor c cr n = some r → ∀ i ∈ r, ∀ t, Mentions i t → (typeRef items t).isSome := by
    intro cr n r hl
    simp only [methodsFor] at hl
    split at hl
    · split at hl
      · cases hl
      · exact keys hl
    · exact keys hl
  intro ns hns
  constructor
  · intro i hi
    obtain ⟨fs, _, _, _, _, _, h1, _, _, _, _, _, rfl⟩ := toRoot_some ht
    simp only [List.mem_map, mem_sortBy] at hns
    obtain ⟨e, _, rfl⟩ := hns
    rw [mem_within, mem_place h1] at hi
    obtain ⟨j, _, _, _, _, hj⟩ := hi
    exact key hj
  · intro d hd
    obtain ⟨k, hk, i, hi, h1, _⟩ := (hr.types ns hns d).1 hd
    cases i <;> simp only [mapDef, reduceCtorEq, bind, Option.bind_eq_some_iff, Option.some.injEq] at h1
    case record | enum =>
      obtain ⟨_, h1, _, h2, _, h3, _, h4, rfl⟩ := h1
      rintro i (rfl | hi | hi | hi | hi)
      · exact key h4
      · exact keys h1 i hi
      · exact keysM h2 i hi
      · exact keys h3 i hi
      · cases hi
    case object =>
      obtain ⟨_, h1, _, h2, _, h3, _, h4, rfl⟩ := h1
      rintro i (rfl | hi | hi | hi | hi)
      · intro t ht; exact absurd ht (by simp [Mentions])
      · exact keys h1 i hi
      · exact keysM h2 i hi
      · exact keys h3 i hi
      · exact keys h4 i hi
    case callbackInterface =>
      obtain ⟨_, h2, rfl⟩ := h1
      rintro i (rfl | hi | hi | hi | hi)
      · intro t ht; exact absurd ht (by simp [Mentions])
      · cases hi
      · exact keysM h2 i hi
      · cases hi
      · cases hi
    case customType =>
      obtain ⟨_, h4, rfl⟩ := h1
      rintro i (rfl | hi | hi | hi | hi)
      · exact key h4
      all_goals cases hi

/-! ### The other languages -/

/-- What a `ComponentInterface` holds: the functions and the types of the items, in their order, and
with each type the members that name it. -/
theorem C66_legacy {l : List Metadata} {ci : Ci} (h : addAllToCi {} l = some ci)
    (hn : (l.filterMap ownerName).Nodup) :
    ci.functions = l.filter isFunction ∧
    ci.objects.map (·.item) = l.filter (fun i => match i with | .object .. => true | _ => false) ∧
    ci.records.map (·.item) = l.filter (fun i => match i with | .record .. => true | _ => false) ∧
    ci.enums.map (·.item) = l.filter (fun i => match i with | .enum .. => true | _ => false) ∧
    ci.callbacks.map (·.item) =
      l.filter (fun i => match i with | .callbackInterface .. => true | _ => false) ∧
    ∀ o ∈ ci.objects ++ ci.records ++ ci.enums ++ ci.callbacks, ∀ n, ownerName o.item = some n →
      o.ctors = l.filter (ctorIn n) ∧ o.methods = l.filter (methodIn n) ∧
      o.builtins = l.filter (builtinIn n) ∧ o.impls = l.filter (implIn n) := by
  have hi := linv_of hn h
  refine ⟨hi.functions, hi.objects, hi.records, hi.enums, hi.callbacks, ?_⟩
  intro o ho n hon
  refine hi.members o ho n ?_
  rw [← ownerName_defName, hon]
  simp only [List.mem_append] at ho
  rcases ho with ((ho | ho) | ho) | ho
  · have := List.mem_map_of_mem (f := TypeDef.item) ho
    rw [hi.objects, List.mem_filter] at this
    exact .inl this.2
  · have := List.mem_map_of_mem (f := TypeDef.item) ho
    rw [hi.records, List.mem_filter] at this
    exact .inr (.inl this.2)
  · have := List.mem_map_of_mem (f := TypeDef.item) ho
    rw [hi.enums, List.mem_filter] at this
    exact .inr (.inr (.inl this.2))
  · have := List.mem_map_of_mem (f := TypeDef.item) ho
    rw [hi.callbacks, List.mem_filter] at this
    exact .inr (.inr (.inr this.2))

/-- Custom types of a `ComponentInterface`: each once, and documented if one of its descriptions is. -/
theorem C66_legacy_custom {l : List Metadata} {ci : Ci} (h : addAllToCi {} l = some ci)
    (hn : (l.filterMap ownerName).Nodup) :
    (∀ e ∈ ci.customs, isCustom e = true ∧ ∃ i ∈ l, SameCustom e i) ∧
    (∀ e ∈ ci.customs, ∀ e' ∈ ci.customs, SameCustom e e' → e = e') ∧
    (∀ i ∈ l, isCustom i = true → ∃ e ∈ ci.customs, SameCustom e i ∧
      ((customDoc i).isSome → (customDoc e).isSome)) := by
  have hi := cinv_of hn h
  refine ⟨fun e he => ⟨(hi.sound e he).1, (hi.sound e he).2.1⟩, ?_, hi.complete⟩
  intro e he e' he' hs
  have hname : defName e = defName e' := by
    cases e <;> cases e' <;> simp only [SameCustom] at hs
    rw [hs.2.1] at *
    simp [defName]
  exact eq_of_map_nodup hi.nodup he he' hname

/-- A member of a type that is not there is refused. -/
theorem C66_legacy_orphans {l : List Metadata} (hn : (l.filterMap ownerName).Nodup) {i : Metadata}
    (hi : i ∈ l) {n : String} (hm : memberIn n i = true) (ho : n ∉ l.filterMap ownerName) :
    addAllToCi {} l = none := by
  cases h : addAllToCi {} l with
  | none => rfl
  | some ci =>
    have inv := linv_of hn h
    exact absurd (inv.mem_owner.1 (inv.owned i hi n hm)) ho

/-- Which items the other languages take: exactly those where every item fits after the items before it. -/
theorem C66_legacy_accepts {l : List Metadata} (hn : (l.filterMap ownerName).Nodup) :
    (addAllToCi {} l).isSome ↔ ∀ before i after, l = before ++ i :: after → FitsAfter before i :=
  isSome_iff hn

/-- The methods of a callback interface are at their positions: 0, 1, 2 and so on. -/
theorem C66_legacy_positions {l : List Metadata} {ci : Ci} (h : addAllToCi {} l = some ci)
    (hn : (l.filterMap ownerName).Nodup) :
    ∀ o ∈ ci.callbacks, o.methods.map position = List.range o.methods.length := by
  intro o ho
  have hi := linv_of hn h
  have hk := List.mem_map_of_mem (f := TypeDef.item) ho
  rw [hi.callbacks, List.mem_filter] at hk
  obtain ⟨t, ht⟩ : ∃ t, defName o.item = some t := by
    cases hit : o.item <;> rw [hit] at hk <;> simp [isCallback] at hk
    exact ⟨_, rfl⟩
  have hm := (hi.members o (by simp [owners, ho]) t ht).2.1
  have hno : ¬ ∃ j ∈ l, hasMethods t j := by
    have hd := hi.distinct hn
    rw [three, ← hi.object_named, ← hi.record_named, ← hi.enum_named]
    rintro (h | h | h)
    · exact (hd.disjoint.1 h).2.2 o ho ht
    · exact (hd.disjoint.2.1 h).2 o ho ht
    · exact hd.disjoint.2.2 h o ho ht
  have hfit := (isSome_iff hn).1 (Option.isSome_of_eq_some h)
  rw [hm, List.range_eq_range']
  have := positions_range (p := methodIn t) (f := position) [] l (fun a i b he hp => by
    have hf := hfit a i b he
    have hsub : ∀ j ∈ a, j ∈ l := fun j hj => by rw [he]; simp [hj]
    cases i
    case method m =>
      have hp : m.selfName = t := by simpa [methodIn, role] using hp
      simp only [FitsAfter, hp] at hf
      obtain ⟨j, hj, h2⟩ := hf
      exact absurd ⟨j, hsub j hj, h2⟩ hno
    case traitMethod t' x f =>
      have hp : t' = t := by simpa [methodIn, role] using hp
      simp only [FitsAfter, hp] at hf
      rcases hf with ⟨j, hj, h2⟩ | h2
      · exact absurd ⟨j, hsub j hj, h2⟩ hno
      · exact h2.2
    case uniffiTrait u => cases u <;> simp [methodIn, role] at hp
    case objectTraitImpl u v => cases u <;> simp [methodIn, role] at hp
    all_goals simp [methodIn, role] at hp)
  simpa using this

/-- Both ways agree: what Python is given and what the other languages are given are the same functions,
the same types and, with each type, the same members. `l` holds the items of the crate. -/
theorem C66_agree {l : List Metadata} {ci : Ci} {cr : String} {ns : Ns} (h : assemble items = some root)
    (hl : addAllToCi {} l = some ci) (hns : ns ∈ root) (hcr : Metadata.namespace_ cr ns.name ∈ items)
    (hmem : ∀ i, i ∈ l ↔ i ∈ items ∧ crateOf i = some cr) (hnd : l.Nodup)
    (hn : (l.filterMap ownerName).Nodup) (ho : OneNamespace items)
    (hdash : ∀ i ∈ items, ∀ c, crateOf i = some c → '-' ∉ c.toList) :
    ns.functions.Perm ci.functions ∧
    (∀ o ∈ ci.objects ++ ci.records ++ ci.enums ++ ci.callbacks, ∃ d ∈ ns.types, SameDef d o) ∧
    (∀ d ∈ ns.types, isCustom d.item = false →
      ∃ o ∈ ci.objects ++ ci.records ++ ci.enums ++ ci.callbacks, SameDef d o) ∧
    (∀ d ∈ ns.types, isCustom d.item = true → ∃ e ∈ ci.customs, SameCustom d.item e ∧
      (customDoc d.item).isSome = (customDoc e).isSome) ∧
    (∀ e ∈ ci.customs, ∃ d ∈ ns.types, SameCustom d.item e) := by
  have hlives : ∀ i ∈ items, ∀ c, crateOf i = some c → (Lives items c ns.name ↔ c = cr) := by
    intro i hi c hc
    constructor
    · rintro ⟨c', h1, h2⟩
      rw [undash_id (hdash i hi c hc)] at h2
      have hcon : Consistent items := by
        obtain ⟨_, _, inv, _⟩ := parts h
        exact inv.consistent
      have h3 := hcon.namespaces _ _ _ h1 hcr
      rw [← h3]
      exact (String.toList_inj.1 h2).symm
    · rintro rfl
      exact ⟨c, hcr, (undash_id (hdash i hi c hc)).symm⟩
  obtain ⟨lf, lo, lr, le, lcb, lm⟩ := C66_legacy hl hn
  have linv := linv_of hn hl
  obtain ⟨fn, fm⟩ := C66_functions h ho ns hns
  obtain ⟨tn, tu, ts, tc⟩ := C66_types h ho ns hns
  have hbare := bare_of hl
  -- the members of a definition
  have key : ∀ d ∈ ns.types, ∀ o ∈ ci.objects ++ ci.records ++ ci.enums ++ ci.callbacks,
      d.item = o.item → SameDef d o := by
    intro d hd o hoo he
    obtain ⟨hdi, c, n, hdt, hdl⟩ := ts d hd
    have hc : crateOf d.item = some c := by
      rw [definedType] at hdt
      split at hdt <;> simp only [Option.some.injEq, Prod.mk.injEq, reduceCtorEq] at hdt
      all_goals
        rename_i hr
        obtain ⟨rfl, rfl⟩ := hdt
        exact roleKey_crate hr
    have hccr := (hlives d.item hdi c hc).1 hdl
    rw [hccr] at hdt
    have hown : ownerName o.item = some n ∧ (role d.item = some (.record cr n) ∨ role d.item = some (.enum cr n) ∨
        role d.item = some (.object cr n) ∨ role d.item = some (.callback cr n)) := by
      have hk : isObject o.item ∨ isRecord o.item ∨ isEnum o.item ∨ isCallback o.item := by
        simp only [List.mem_append] at hoo
        rcases hoo with ((ho | ho) | ho) | ho
        · have := List.mem_map_of_mem (f := TypeDef.item) ho
          rw [linv.objects, List.mem_filter] at this
          exact .inl this.2
        · have := List.mem_map_of_mem (f := TypeDef.item) ho
          rw [linv.records, List.mem_filter] at this
          exact .inr (.inl this.2)
        · have := List.mem_map_of_mem (f := TypeDef.item) ho
          rw [linv.enums, List.mem_filter] at this
          exact .inr (.inr (.inl this.2))
        · have := List.mem_map_of_mem (f := TypeDef.item) ho
          rw [linv.callbacks, List.mem_filter] at this
          exact .inr (.inr (.inr this.2))
      rw [he] at hdt ⊢
      generalize o.item = x at hdt hk ⊢
      cases x <;> simp [isObject, isRecord, isEnum, isCallback] at hk <;>
        simp [definedType, role, ownerName] at hdt ⊢ <;> simp [hdt]
    obtain ⟨hon, hroles⟩ := hown
    obtain ⟨m1, m2, m3, m4⟩ := lm o hoo n hon
    obtain ⟨em1, em2, em3⟩ := C66_methods h ns hns d hd cr n hroles
    have hmethods : d.methods.Perm o.methods := by
      rw [m2]
      refine (List.perm_ext_iff_of_nodup em1 (hnd.filter _)).2 ?_
      intro i
      rw [em3, List.mem_filter, hmem, methodIn_iff]
      constructor
      · rintro ⟨h1, x, hx⟩
        refine ⟨⟨h1, ?_⟩, cr, x, hx⟩
        rcases hx with hx | hx <;> exact roleKey_crate hx
      · rintro ⟨⟨h1, h2⟩, c', x, hx⟩
        refine ⟨h1, x, ?_⟩
        rcases hx with hx | hx
        · rw [roleKey_crate hx] at h2; cases h2; exact .inl hx
        · rw [roleKey_crate hx] at h2; cases h2; exact .inr hx
    have hcb : (role d.item = some (.record cr n) ∨ role d.item = some (.enum cr n) ∨
        role d.item = some (.object cr n)) → d.ctors.Perm o.ctors ∧ d.builtins.Perm o.builtins := by
      intro hr
      obtain ⟨⟨a1, a2, a3⟩, b1, b2, b3⟩ := C66_constructors h ns hns d hd cr n hr
      constructor
      · rw [m1]
        refine (List.perm_ext_iff_of_nodup a1 (hnd.filter _)).2 ?_
        intro i
        rw [a3, List.mem_filter, hmem, ctorIn_iff]
        constructor
        · rintro ⟨h1, x, hx⟩
          exact ⟨⟨h1, roleKey_crate hx⟩, cr, x, hx⟩
        · rintro ⟨⟨h1, h2⟩, c', x, hx⟩
          rw [roleKey_crate hx] at h2; cases h2
          exact ⟨h1, x, hx⟩
      · rw [m3]
        refine (List.perm_ext_iff_of_nodup b1 (hnd.filter _)).2 ?_
        intro i
        rw [b3, List.mem_filter, hmem, builtinIn_iff]
        constructor
        · rintro ⟨h1, x, hx⟩
          exact ⟨⟨h1, roleKey_crate hx⟩, cr, x, hx⟩
        · rintro ⟨⟨h1, h2⟩, c', x, hx⟩
          rw [roleKey_crate hx] at h2; cases h2
          exact ⟨h1, x, hx⟩
    obtain ⟨c0, _, inv, _, _, hr0⟩ := parts h
    obtain ⟨_, _, i0, _, hmd, _⟩ := (hr0.types ns hns d).1 hd
    have hbd := mapDef_bare hmd
    rw [← mapDef_item hmd] at hbd
    -- where the other one is
    have hnotobj : isObject o.item = false → o.impls = [] := by
      intro hno
      simp only [List.mem_append] at hoo
      rcases hoo with ((ho | ho) | ho) | ho
      · have := List.mem_map_of_mem (f := TypeDef.item) ho
        rw [linv.objects, List.mem_filter, hno] at this
        cases this.2
      · exact hbare.records o ho
      · exact hbare.enums o ho
      · exact (hbare.callbacks o ho).1
    have hiscb : isCallback o.item = true → o.ctors = [] ∧ o.builtins = [] := by
      intro hcb
      simp only [List.mem_append] at hoo
      rcases hoo with ((ho | ho) | ho) | ho
      · have := List.mem_map_of_mem (f := TypeDef.item) ho
        rw [linv.objects, List.mem_filter] at this
        generalize o.item = x at hcb this
        cases x <;> simp [isObject, isCallback] at this hcb
      · have := List.mem_map_of_mem (f := TypeDef.item) ho
        rw [linv.records, List.mem_filter] at this
        generalize o.item = x at hcb this
        cases x <;> simp [isRecord, isCallback] at this hcb
      · have := List.mem_map_of_mem (f := TypeDef.item) ho
        rw [linv.enums, List.mem_filter] at this
        generalize o.item = x at hcb this
        cases x <;> simp [isEnum, isCallback] at this hcb
      · exact (hbare.callbacks o ho).2
    have himpls : d.impls.Perm o.impls := by
      by_cases hobj : isObject d.item = true
      · have hr : role d.item = some (.object cr n) := by
          generalize d.item = x at hobj hroles
          cases x <;> simp [isObject] at hobj
          simpa [role] using hroles
        obtain ⟨a1, a3⟩ := C66_impls h ns hns d hd cr n hr
        rw [m4]
        refine (List.perm_ext_iff_of_nodup a1 (hnd.filter _)).2 ?_
        intro i
        rw [a3, List.mem_filter, hmem, implIn_iff]
        constructor
        · rintro ⟨h1, x, hx⟩
          exact ⟨⟨h1, roleKey_crate hx⟩, cr, x, hx⟩
        · rintro ⟨⟨h1, h2⟩, c', x, hx⟩
          rw [roleKey_crate hx] at h2; cases h2
          exact ⟨h1, x, hx⟩
      · rw [Bool.not_eq_true] at hobj
        rw [hbd.1 hobj, hnotobj (he ▸ hobj)]
    by_cases hcbk : isCallback d.item = true
    · obtain ⟨e1, e2⟩ := hbd.2 hcbk
      obtain ⟨e3, e4⟩ := hiscb (he ▸ hcbk)
      exact ⟨he, by rw [e1, e3], hmethods, by rw [e2, e4], himpls⟩
    · have hr : role d.item = some (.record cr n) ∨ role d.item = some (.enum cr n) ∨
          role d.item = some (.object cr n) := by
        rcases hroles with hr | hr | hr | hr
        · exact .inl hr
        · exact .inr (.inl hr)
        · exact .inr (.inr hr)
        · exfalso
          apply hcbk
          generalize d.item = x at hr
          cases x <;> simp only [role, reduceCtorEq, Option.some.injEq] at hr
          · rfl
          case uniffiTrait t => cases t <;> cases hr
          case objectTraitImpl t tr => cases t <;> cases hr
      obtain ⟨p1, p2⟩ := hcb hr
      exact ⟨he, p1, hmethods, p2, himpls⟩
  have hownermem : ∀ x, (∃ o ∈ ci.objects ++ ci.records ++ ci.enums ++ ci.callbacks, o.item = x) ↔
      x ∈ l ∧ (isObject x ∨ isRecord x ∨ isEnum x ∨ isCallback x) := by
    intro x
    have hm : (∃ o ∈ ci.objects ++ ci.records ++ ci.enums ++ ci.callbacks, o.item = x) ↔
        x ∈ (ci.objects ++ ci.records ++ ci.enums ++ ci.callbacks).map (·.item) := by
      simp only [List.mem_map]
    rw [hm]
    simp only [List.map_append, linv.objects, linv.records, linv.enums, linv.callbacks, List.mem_append,
      List.mem_filter]
    grind
  have hcinv := cinv_of hn hl
  refine ⟨?_, ?_, ?_, ?_, ?_⟩
  · rw [lf]
    refine (List.perm_ext_iff_of_nodup fn (hnd.filter _)).2 ?_
    intro i
    rw [fm, List.mem_filter, hmem, isFunction_iff]
    constructor
    · rintro ⟨h1, c, x, hx, hlv⟩
      have hc := roleKey_crate hx
      have := (hlives i h1 c hc).1 hlv
      subst this
      exact ⟨⟨h1, hc⟩, c, x, hx⟩
    · rintro ⟨⟨h1, h2⟩, c', x, hx⟩
      refine ⟨h1, c', x, hx, (hlives i h1 c' (roleKey_crate hx)).2 ?_⟩
      rw [roleKey_crate hx] at h2; cases h2; rfl
  · intro o hoo
    obtain ⟨h1, h2⟩ := (hownermem o.item).1 ⟨o, hoo, rfl⟩
    obtain ⟨h3, h4⟩ := (hmem _).1 h1
    have hdt : ∃ n, definedType o.item = some (cr, n) := by
      generalize o.item = x at h2 h4
      cases x <;> simp [isObject, isRecord, isEnum, isCallback] at h2 <;>
        simp [crateOf, role, definedType] at h4 ⊢ <;> exact h4
    obtain ⟨n, hdt⟩ := hdt
    obtain ⟨d, hd, he⟩ := tc o.item h3 cr n hdt ((hlives _ h3 cr h4).2 rfl)
    have he' : d.item = o.item := by
      rcases he with he | ⟨hs, _⟩
      · exact he
      · generalize o.item = x at h2 hs
        generalize d.item = y at hs
        cases y <;> cases x <;> simp only [SameCustom] at hs
        simp [isObject, isRecord, isEnum, isCallback] at h2
    exact ⟨d, hd, key d hd o hoo he'⟩
  · intro d hd hdc
    obtain ⟨hdi, c, n, hdt, hdl⟩ := ts d hd
    have hk : isObject d.item ∨ isRecord d.item ∨ isEnum d.item ∨ isCallback d.item := by
      generalize d.item = x at hdc hdt
      cases x <;> simp [isCustom, isObject, isRecord, isEnum, isCallback, definedType, role] at hdc hdt ⊢
      case uniffiTrait t => cases t <;> simp at hdt
      case objectTraitImpl t tr => cases t <;> simp at hdt
    have hc : crateOf d.item = some c := by
      rw [definedType] at hdt
      split at hdt <;> simp only [Option.some.injEq, Prod.mk.injEq, reduceCtorEq] at hdt
      all_goals
        rename_i hr
        obtain ⟨rfl, rfl⟩ := hdt
        exact roleKey_crate hr
    have hccr := (hlives d.item hdi c hc).1 hdl
    subst hccr
    obtain ⟨o, hoo, he⟩ := (hownermem d.item).2 ⟨(hmem _).2 ⟨hdi, hc⟩, hk⟩
    exact ⟨o, hoo, key d hd o hoo he.symm⟩
  · intro d hd hdc
    obtain ⟨hdi, c, n, hdt, hdl⟩ := ts d hd
    have hc : crateOf d.item = some c := by
      rw [definedType] at hdt
      split at hdt <;> simp only [Option.some.injEq, Prod.mk.injEq, reduceCtorEq] at hdt
      all_goals
        rename_i hr
        obtain ⟨rfl, rfl⟩ := hdt
        exact roleKey_crate hr
    have hccr := (hlives d.item hdi c hc).1 hdl
    obtain ⟨e, hee, hs, hdoc⟩ := hcinv.complete d.item ((hmem _).2 ⟨hdi, hccr ▸ hc⟩) hdc
    refine ⟨e, hee, hs.symm, ?_⟩
    rw [Bool.eq_iff_iff]
    refine ⟨hdoc, ?_⟩
    intro hed
    obtain ⟨j, hj, hsj, hjd⟩ := (hcinv.sound e hee).2.2 (by rw [Option.isSome_iff_ne_none] at hed; exact hed)
    obtain ⟨hji, hjc⟩ := (hmem j).1 hj
    have hdj : definedType j = some (c, n) := by
      have := hs.symm.trans hsj
      generalize d.item = x at this hdt
      cases x <;> cases j <;> simp only [SameCustom] at this
      simp only [definedType, role] at hdt ⊢
      rw [← this.1, ← this.2.1]; exact hdt
    obtain ⟨d', hd', hcov⟩ := tc j hji c n hdj hdl
    have hrole : role d'.item = role d.item := by
      have h1 : SameCustom d.item j := hs.symm.trans hsj
      have h2 : SameCustom d'.item j := by
        rcases hcov with hcov | hcov
        · rw [hcov]
          cases j <;> cases e <;> simp only [SameCustom] at hsj
          simp [SameCustom]
        · exact hcov.1
      have h3 := h2.trans h1.symm
      generalize d.item = x at h3
      generalize d'.item = y at h3
      cases y <;> cases x <;> simp only [SameCustom] at h3
      simp [role, h3.1, h3.2.1]
    obtain rfl := tu d' hd' d hd hrole
    rcases hcov with hcov | hcov
    · rw [hcov, hjd]; exact hed
    · exact hcov.2 (by rw [hjd]; exact hed)
  · intro e hee
    obtain ⟨hec, ⟨j, hj, hs⟩, _⟩ := hcinv.sound e hee
    obtain ⟨hji, hjc⟩ := (hmem j).1 hj
    have hdj : ∃ n, definedType j = some (cr, n) := by
      cases e <;> cases j <;> simp only [SameCustom] at hs
      simp [crateOf, role, definedType] at hjc ⊢
      exact hjc
    obtain ⟨n, hdj⟩ := hdj
    obtain ⟨d, hd, hcov⟩ := tc j hji cr n hdj ((hlives j hji cr hjc).2 rfl)
    refine ⟨d, hd, ?_⟩
    rcases hcov with hcov | hcov
    · rw [hcov]; exact hs.symm
    · exact hcov.1.trans hs.symm

/-! ### Examples -/

/-- A function without arguments. -/
def fnOf (m n : String) (o : Option String) (r : Option MTy) : MFn := ⟨m, n, o, false, [], r, none, none, none⟩

/-- The items of two crates, `a` with a function, a renamed record with a constructor and two methods,
an object that implements a trait, a callback interface and a custom type described twice, and `b` with
a function that returns the record of `a`. -/
def demo : List Metadata := [
  .namespace_ "a" "na", .namespace_ "b" "nb",
  .func (fnOf "a::x" "f" none (some (.optional (.record "a::y" "R")))),
  .func (fnOf "b" "f" none (some (.record "a::y" "R"))),
  .record "a::y" "R" (some "Rec") [⟨"x", none, .custom "a" "C" .string, none, none⟩] none,
  .object "a" "O" none .struct none, .callbackInterface "a" "T" none,
  .customType "a" "C" none .string none, .customType "a" "C" none .string (some "doc"),
  .method ⟨"R", fnOf "a::y" "n" none none⟩, .method ⟨"R", fnOf "a::y" "m" none none⟩,
  .constructor ⟨"a::y", "R", "new", none, false, [], none, none, none⟩,
  .traitMethod "T" 1 (fnOf "a" "first" none none), .traitMethod "T" 0 (fnOf "a" "second" none none),
  .uniffiTrait (.debug ⟨"O", fnOf "a" "fmt" none (some .string)⟩),
  .objectTraitImpl (.object "a" "O" .struct) (.callbackInterface "a" "T")]

/-- What is assembled from them. -/
def demoRoot : List Ns := [
  ⟨"na", "a", [.func (fnOf "a::x" "f" none (some (.optional (.record "a::y" "R"))))],
    [{ item := .record "a::y" "R" (some "Rec") [⟨"x", none, .custom "a" "C" .string, none, none⟩] none
       ctors := [.constructor ⟨"a::y", "R", "new", none, false, [], none, none, none⟩]
       methods := [.method ⟨"R", fnOf "a::y" "m" none none⟩, .method ⟨"R", fnOf "a::y" "n" none none⟩] },
     { item := .customType "a" "C" none .string (some "doc") },
     { item := .object "a" "O" none .struct none
       builtins := [.uniffiTrait (.debug ⟨"O", fnOf "a" "fmt" none (some .string)⟩)]
       impls := [.objectTraitImpl (.object "a" "O" .struct) (.callbackInterface "a" "T")] },
     { item := .callbackInterface "a" "T" none
       methods := [.traitMethod "T" 0 (fnOf "a" "second" none none),
         .traitMethod "T" 1 (fnOf "a" "first" none none)] }]⟩,
  ⟨"nb", "b", [.func (fnOf "b" "f" none (some (.record "a::y" "R")))], []⟩]

/-- The items of crate `a` in the order of a `BTreeSet`. -/
def demoA : List Metadata := [
  .func (fnOf "a::x" "f" none (some (.optional (.record "a::y" "R")))),
  .object "a" "O" none .struct none, .callbackInterface "a" "T" none,
  .record "a::y" "R" (some "Rec") [⟨"x", none, .custom "a" "C" .string, none, none⟩] none,
  .constructor ⟨"a::y", "R", "new", none, false, [], none, none, none⟩,
  .method ⟨"R", fnOf "a::y" "m" none none⟩, .method ⟨"R", fnOf "a::y" "n" none none⟩,
  .traitMethod "T" 0 (fnOf "a" "second" none none), .traitMethod "T" 1 (fnOf "a" "first" none none),
  .customType "a" "C" none .string none, .customType "a" "C" none .string (some "doc"),
  .uniffiTrait (.debug ⟨"O", fnOf "a" "fmt" none (some .string)⟩),
  .objectTraitImpl (.object "a" "O" .struct) (.callbackInterface "a" "T")]

/-- `C66_namespaces`, `C66_functions`, `C66_types` and the theorems on members apply. -/
example : assemble demo = some demoRoot := by decide +kernel

example : OneNamespace demo := by
  intro c n n' h1 h2
  simp [demo] at h1 h2
  rcases h1 with ⟨rfl, rfl⟩ | ⟨rfl, rfl⟩ <;> simp_all

/-- `C66_order`: another order. -/
example : assemble demo.reverse = some demoRoot := by decide +kernel

example : OneCustom demo := by
  intro i hi j hj
  simp only [demo, List.mem_cons, List.not_mem_nil, or_false] at hi hj
  rcases hi with rfl | rfl | rfl | rfl | rfl | rfl | rfl | rfl | rfl | rfl | rfl | rfl | rfl | rfl | rfl | rfl <;>
  rcases hj with rfl | rfl | rfl | rfl | rfl | rfl | rfl | rfl | rfl | rfl | rfl | rfl | rfl | rfl | rfl | rfl <;>
  simp [SameCustom, customDoc]

/-- `C66_accepted`: the items do not contradict each other. -/
example : Consistent demo ∧ NoMix demo := by
  refine ⟨?_, ?_⟩
  · obtain ⟨_, _, inv, _⟩ := parts (items := demo) (root := demoRoot) (by decide +kernel)
    exact inv.consistent
  · intro i hi j hj cr n x y
    simp only [demo, List.mem_cons, List.not_mem_nil, or_false] at hi hj
    rcases hi with rfl | rfl | rfl | rfl | rfl | rfl | rfl | rfl | rfl | rfl | rfl | rfl | rfl | rfl | rfl | rfl <;>
    rcases hj with rfl | rfl | rfl | rfl | rfl | rfl | rfl | rfl | rfl | rfl | rfl | rfl | rfl | rfl | rfl | rfl <;>
    simp [role, fnOf] <;> grind

/-- All crates of a smaller interface are known. -/
example : AllKnown [.namespace_ "a" "n", .func (fnOf "a" "f" none (some (.record "a" "R"))),
    .record "a" "R" none [] none] := by
  have hk : crateName "a" = "a" := by decide +kernel
  have hl : Lives [.namespace_ "a" "n", .func (fnOf "a" "f" none (some (.record "a" "R"))),
    .record "a" "R" none [] none] "a" "n" := ⟨"a", by simp, by decide +kernel⟩
  constructor
  · intro i hi cr hp
    simp only [List.mem_cons, List.not_mem_nil, or_false] at hi
    rcases hi with rfl | rfl | rfl <;> simp [Placed, role, definedType, fnOf, hk] at hp <;>
      exact ⟨"n", hp ▸ hl⟩
  · intro i hi t ht m hm
    simp only [List.mem_cons, List.not_mem_nil, or_false] at hi
    rcases hi with rfl | rfl | rfl <;> simp [Mentions, fnOf, InFn, InArgs, InFields] at ht
    subst ht
    cases hm
    exact ⟨"n", hk.symm ▸ hl⟩

/-- `C66_refused`: two functions with one name. -/
example : assemble [.namespace_ "a" "n", .func (fnOf "a::x" "f" none none), .func (fnOf "a::y" "f" none none)] =
    none := by decide +kernel

/-- `C66_references` and `C66_rust_name`. -/
example : typeRef demo (.optional (.record "a::y" "R")) = some (.optional (.record "na" "R" "Rec")) := by
  decide +kernel

/-- `C66_legacy`, `C66_legacy_custom` and `C66_agree` apply. -/
example : addAllToCi {} demoA = some {
    functions := [.func (fnOf "a::x" "f" none (some (.optional (.record "a::y" "R"))))]
    objects := [{ item := .object "a" "O" none .struct none
                  builtins := [.uniffiTrait (.debug ⟨"O", fnOf "a" "fmt" none (some .string)⟩)]
                  impls := [.objectTraitImpl (.object "a" "O" .struct) (.callbackInterface "a" "T")] }]
    records := [{ item := .record "a::y" "R" (some "Rec") [⟨"x", none, .custom "a" "C" .string, none, none⟩] none
                  ctors := [.constructor ⟨"a::y", "R", "new", none, false, [], none, none, none⟩]
                  methods := [.method ⟨"R", fnOf "a::y" "m" none none⟩, .method ⟨"R", fnOf "a::y" "n" none none⟩] }]
    callbacks := [{ item := .callbackInterface "a" "T" none
                    methods := [.traitMethod "T" 0 (fnOf "a" "second" none none),
                      .traitMethod "T" 1 (fnOf "a" "first" none none)] }]
    customs := [.customType "a" "C" none .string (some "doc")] } := by decide +kernel

example : (demoA.filterMap ownerName).Nodup ∧ demoA.Nodup ∧ demoA.all (fun i => i ∈ demo ∧ crateOf i = some "a") ∧
    demo.all (fun i => crateOf i = some "a" → i ∈ demoA) := by decide +kernel

/-- `C66_legacy_accepts` and `C66_legacy_positions`: a method that comes at a wrong position is refused. -/
example : (addAllToCi {} [.callbackInterface "a" "T" none, .traitMethod "T" 0 (fnOf "a" "x" none none),
    .traitMethod "T" 1 (fnOf "a" "y" none none)]).isSome = true ∧
    addAllToCi {} [.callbackInterface "a" "T" none, .traitMethod "T" 0 (fnOf "a" "x" none none),
      .traitMethod "T" 2 (fnOf "a" "y" none none)] = none := by decide +kernel

/-- `C66_legacy_orphans`. -/
example : memberIn "X" (.method ⟨"X", fnOf "a" "m" none none⟩) = true ∧
    addAllToCi {} [.method ⟨"X", fnOf "a" "m" none none⟩] = none := by decide +kernel

/-! ### What does not hold -/

/-- Python gets an interface without the members of types that are not there; the other languages refuse
it. Nothing says that a method was left out. -/
theorem C66_orphans_broken :
    assemble [.namespace_ "a" "n", .method ⟨"X", fnOf "a" "m" none none⟩] = some [⟨"n", "a", [], []⟩] ∧
    addAllToCi {} [.method ⟨"X", fnOf "a" "m" none none⟩] = none := by decide +kernel

/-- Two types with one name in different modules of a crate, a record and an enum: a method of one is a
method of both in Python, and only of the record in the other languages. -/
theorem C66_same_name_broken :
    assemble [.namespace_ "a" "n", .record "a::x" "X" none [] none,
      .enum "a::y" "X" none .enum none [] false none, .method ⟨"X", fnOf "a::y" "m" none none⟩] =
      some [⟨"n", "a", [], [{ item := .record "a::x" "X" none [] none, methods := [.method ⟨"X", fnOf "a::y" "m" none none⟩] },
        { item := .enum "a::y" "X" none .enum none [] false none, methods := [.method ⟨"X", fnOf "a::y" "m" none none⟩] }]⟩] ∧
    (addAllToCi {} [.record "a::x" "X" none [] none,
      .enum "a::y" "X" none .enum none [] false none, .method ⟨"X", fnOf "a::y" "m" none none⟩]).map
        (fun ci => (ci.records.map (·.methods.length), ci.enums.map (·.methods.length))) =
      some ([1], [0]) := by decide +kernel

/-- A function and a record of a module with the same exported name: references to the record carry the
Rust name of whichever item was read last. -/
theorem C66_rust_name_broken :
    typeRef [.namespace_ "a" "n", .record "a" "X" (some "R") [] none, .func (fnOf "a" "X" (some "f") none)]
      (.record "a" "X") = some (.record "n" "X" "f") ∧
    typeRef [.namespace_ "a" "n", .func (fnOf "a" "X" (some "f") none), .record "a" "X" (some "R") [] none]
      (.record "a" "X") = some (.record "n" "X" "R") := by decide +kernel

/-- The Rust name of a custom type is not in references to it. -/
theorem C66_custom_name_broken :
    typeRef [.namespace_ "a" "n", .customType "a" "X" (some "C") .string none] (.custom "a" "X" .string) =
      some (.custom "n" "X" "X" .string) := by decide +kernel

/-- A crate with two namespaces: its functions are in the one that was read last. -/
theorem C66_two_namespaces_broken :
    assemble [.namespace_ "a" "m", .namespace_ "a" "n", .func (fnOf "a" "f" none none)] =
      some [⟨"m", "a", [], []⟩, ⟨"n", "a", [.func (fnOf "a" "f" none none)], []⟩] ∧
    assemble [.namespace_ "a" "n", .namespace_ "a" "m", .func (fnOf "a" "f" none none)] =
      some [⟨"m", "a", [.func (fnOf "a" "f" none none)], []⟩, ⟨"n", "a", [], []⟩] := by decide +kernel

end Verif.Props.Assemble
