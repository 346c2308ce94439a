import Verif.Gen.AssembleOrder
import Verif.Gen.AssembleRefs
import Verif.Gen.AssembleLegacy
/-
The maps of the converter in terms of roles, Rust names, and the two ways compared.
-/
namespace Verif.Gen.Assemble
open Verif.Meta

theorem itemCrate_eq (i : Metadata) : itemCrate i = crateOf i := by
  rw [itemCrate, keyOf_role, crateOf]
  cases h : role i with
  | none => rfl
  | some r => cases r <;> rfl

/-- The maps that hold functions and types. -/
theorem Inv.mem_values {items : List Metadata} {c : Conv} (hi : Inv items c) {i : Metadata} {k : Kind}
    (hk : k ≠ .custom) : i ∈ values c k ↔ i ∈ items ∧ ∃ r, role i = some r ∧ (roleKey r).kind = k := by
  rw [Assemble.mem_values]
  constructor
  · rintro ⟨key, h1, rfl⟩
    obtain ⟨h2, h3⟩ := hi.sound _ _ h1
    obtain ⟨r, hr, rfl⟩ := keyOf_some.1 h3
    exact ⟨h2, r, hr, rfl⟩
  · rintro ⟨h1, r, hr, rfl⟩
    exact ⟨roleKey r, (hi.mem_items hk).2 ⟨h1, keyOf_some.2 ⟨r, hr, rfl⟩⟩, rfl⟩

theorem Inv.mem_children {items : List Metadata} {c : Conv} (hi : Inv items c) {i : Metadata} {k : Kind}
    {cr p : String} (hk : k ≠ .custom) : i ∈ children c k cr p ↔ i ∈ items ∧ ∃ r, role i = some r ∧
      (roleKey r).kind = k ∧ (roleKey r).crate = cr ∧ (roleKey r).parent = p := by
  rw [Assemble.mem_children]
  constructor
  · rintro ⟨key, h1, rfl, rfl, rfl⟩
    obtain ⟨h2, h3⟩ := hi.sound _ _ h1
    obtain ⟨r, hr, rfl⟩ := keyOf_some.1 h3
    exact ⟨h2, r, hr, rfl, rfl, rfl⟩
  · rintro ⟨h1, r, hr, rfl, rfl, rfl⟩
    exact ⟨roleKey r, (hi.mem_items hk).2 ⟨h1, keyOf_some.2 ⟨r, hr, rfl⟩⟩, rfl, rfl, rfl⟩

theorem Inv.mem_ctors {items : List Metadata} {c : Conv} (hi : Inv items c) {i : Metadata} {cr p : String} :
    i ∈ children c .ctor cr p ↔ i ∈ items ∧ ∃ n, role i = some (.ctor cr p n) := by
  rw [hi.mem_children (by decide)]
  refine and_congr Iff.rfl ⟨?_, ?_⟩
  · rintro ⟨r, hr, h1, h2, h3⟩
    cases r <;> cases h1
    cases h2; cases h3
    exact ⟨_, hr⟩
  · rintro ⟨n, hr⟩
    exact ⟨_, hr, rfl, rfl, rfl⟩

theorem Inv.mem_methods {items : List Metadata} {c : Conv} (hi : Inv items c) {i : Metadata} {cr p : String} :
    i ∈ children c .method cr p ↔ i ∈ items ∧ ∃ n, role i = some (.method cr p n) := by
  rw [hi.mem_children (by decide)]
  refine and_congr Iff.rfl ⟨?_, ?_⟩
  · rintro ⟨r, hr, h1, h2, h3⟩
    cases r <;> cases h1
    cases h2; cases h3
    exact ⟨_, hr⟩
  · rintro ⟨n, hr⟩
    exact ⟨_, hr, rfl, rfl, rfl⟩

theorem Inv.mem_traitMethods {items : List Metadata} {c : Conv} (hi : Inv items c) {i : Metadata}
    {cr p : String} :
    i ∈ children c .traitMethod cr p ↔ i ∈ items ∧ ∃ n, role i = some (.traitMethod cr p n) := by
  rw [hi.mem_children (by decide)]
  refine and_congr Iff.rfl ⟨?_, ?_⟩
  · rintro ⟨r, hr, h1, h2, h3⟩
    cases r <;> cases h1
    cases h2; cases h3
    exact ⟨_, hr⟩
  · rintro ⟨n, hr⟩
    exact ⟨_, hr, rfl, rfl, rfl⟩

theorem Inv.mem_builtins {items : List Metadata} {c : Conv} (hi : Inv items c) {i : Metadata} {cr p : String} :
    i ∈ children c .builtin cr p ↔ i ∈ items ∧ ∃ n, role i = some (.builtin cr p n) := by
  rw [hi.mem_children (by decide)]
  refine and_congr Iff.rfl ⟨?_, ?_⟩
  · rintro ⟨r, hr, h1, h2, h3⟩
    cases r <;> cases h1
    cases h2; cases h3
    exact ⟨_, hr⟩
  · rintro ⟨n, hr⟩
    exact ⟨_, hr, rfl, rfl, rfl⟩

theorem Inv.mem_impls {items : List Metadata} {c : Conv} (hi : Inv items c) {i : Metadata} {cr p : String} :
    i ∈ children c .impl cr p ↔ i ∈ items ∧ ∃ n, role i = some (.impl cr p n) := by
  rw [hi.mem_children (by decide)]
  refine and_congr Iff.rfl ⟨?_, ?_⟩
  · rintro ⟨r, hr, h1, h2, h3⟩
    cases r <;> cases h1
    cases h2; cases h3
    exact ⟨_, hr⟩
  · rintro ⟨n, hr⟩
    exact ⟨_, hr, rfl, rfl, rfl⟩

theorem Inv.mem_funcs {items : List Metadata} {c : Conv} (hi : Inv items c) {i : Metadata} :
    i ∈ values c .func ↔ i ∈ items ∧ ∃ cr n, role i = some (.function cr n) := by
  rw [hi.mem_values (by decide)]
  refine and_congr Iff.rfl ⟨?_, ?_⟩
  · rintro ⟨r, hr, h1⟩
    cases r <;> cases h1
    exact ⟨_, _, hr⟩
  · rintro ⟨cr, n, hr⟩
    exact ⟨_, hr, rfl⟩

/-- A map that holds types holds items that define types. -/
theorem Inv.types_sound {items : List Metadata} {c : Conv} (hi : Inv items c) {i : Metadata} {k : Kind}
    (hk : k ∈ typeKinds) (h : i ∈ values c k) : i ∈ items ∧ (definedType i).isSome ∧
      ∀ cr, itemCrate i = some cr → ∃ n, definedType i = some (cr, n) := by
  rw [Assemble.mem_values] at h
  obtain ⟨key, h1, rfl⟩ := h
  obtain ⟨h2, h3⟩ := hi.sound _ _ h1
  obtain ⟨r, hr, rfl⟩ := keyOf_some.1 h3
  refine ⟨h2, ?_, ?_⟩
  · simp only [typeKinds, List.mem_cons, List.not_mem_nil, or_false] at hk
    cases r <;> simp only [roleKey, reduceCtorEq, or_false, or_true, or_self] at hk <;>
      simp [definedType, hr]
  · intro cr hc
    rw [itemCrate_eq, crateOf, hr] at hc
    simp only [typeKinds, List.mem_cons, List.not_mem_nil, or_false] at hk
    cases r <;> simp only [roleKey, reduceCtorEq, or_false, or_true, or_self] at hk <;>
      simp only [Option.some.injEq] at hc <;> simp [definedType, hr, hc]

/-- Every item that defines a type is in one of the maps, or another description of a custom type is. -/
theorem Inv.types_complete {items : List Metadata} {c : Conv} (hi : Inv items c) {i : Metadata}
    (h : i ∈ items) {cr n : String} (hd : definedType i = some (cr, n)) :
    ∃ k ∈ typeKinds, ∃ j ∈ values c k, Covers j i ∧ itemCrate j = some cr := by
  have : ∃ r, role i = some r ∧ (roleKey r).kind ∈ typeKinds ∧ (roleKey r).crate = cr := by
    rw [definedType] at hd
    split at hd <;> simp only [reduceCtorEq, Option.some.injEq, Prod.mk.injEq] at hd
    all_goals
      rename_i hr
      obtain ⟨rfl, rfl⟩ := hd
      exact ⟨_, hr, by simp [roleKey, typeKinds], rfl⟩
  obtain ⟨r, hr, hk, hc⟩ := this
  obtain ⟨j, hj, hcov⟩ := hi.complete i h (roleKey r) (keyOf_some.2 ⟨r, hr, rfl⟩)
  refine ⟨_, hk, j, Assemble.mem_values.2 ⟨_, hj, rfl⟩, hcov, ?_⟩
  rw [itemCrate, (hi.sound _ _ hj).2]
  simp [hc]

/-- No item is in two maps. -/
theorem Inv.kinds_nodup {items : List Metadata} {c : Conv} (hi : Inv items c) :
    ((typeKinds.map (values c)).flatten).Nodup := by
  rw [List.Nodup, List.pairwise_flatten]
  constructor
  · intro l hl
    obtain ⟨k, _, rfl⟩ := List.mem_map.1 hl
    exact hi.values_nodup k
  · rw [List.pairwise_map]
    have hp : typeKinds.Pairwise (· ≠ ·) := by decide
    refine hp.imp ?_
    intro a b hab i hia j hij heq
    subst heq
    obtain ⟨k1, h1, rfl⟩ := Assemble.mem_values.1 hia
    obtain ⟨k2, h2, rfl⟩ := Assemble.mem_values.1 hij
    have e1 := (hi.sound _ _ h1).2
    have e2 := (hi.sound _ _ h2).2
    rw [e1] at e2
    cases e2
    exact hab rfl

theorem roleKey_crate {i : Metadata} {r : Role} (h : role i = some r) : crateOf i = some (roleKey r).crate := by
  rw [crateOf, h]
  cases r <;> rfl

theorem crateOf_idem {i : Metadata} {cr : String} (h : crateOf i = some cr) : crateName cr = cr := by
  rw [← itemCrate_eq, itemCrate, Option.map_eq_some_iff] at h
  obtain ⟨k, hk, rfl⟩ := h
  exact roleCrate_idem hk

/-! ### Rust names -/

/-- The names the converter notes. -/
structure Noted (items : List Metadata) (m : List ((String × String) × String)) : Prop where
  sound : ∀ p n o, get m (p, n) = some o → ∃ i ∈ items, written i = some (p, n, some o)
  complete : ∀ i ∈ items, ∀ p n o, written i = some (p, n, some o) → (get m (p, n)).isSome

theorem origName_written {i : Metadata} {e : (String × String) × String} :
    origName i = some e ↔ written i = some (e.1.1, e.1.2, some e.2) := by
  obtain ⟨⟨p, n⟩, o⟩ := e
  cases i <;> simp [origName, written]
  case func f => constructor <;> rintro ⟨h1, h2, h3⟩ <;> simp [h1, h2, h3]
  all_goals constructor <;> rintro ⟨h1, h2, h3⟩ <;> simp [h1, h2, h3]

theorem Noted.note {items : List Metadata} {m : List ((String × String) × String)} (h : Noted items m)
    (i : Metadata) : Noted (items ++ [i]) (noteOrig m i) := by
  rw [noteOrig]
  split
  · rename_i ho
    have hw : ∀ p n o, written i ≠ some (p, n, some o) := by
      intro p n o hw
      have := origName_written (e := ((p, n), o)).2 hw
      rw [ho] at this
      cases this
    constructor
    · intro p n o hg
      obtain ⟨j, hj, hw⟩ := h.sound p n o hg
      exact ⟨j, by simp [hj], hw⟩
    · intro j hj p n o hj'
      rw [List.mem_append, List.mem_singleton] at hj
      rcases hj with hj | rfl
      · exact h.complete j hj p n o hj'
      · exact absurd hj' (hw p n o)
  · rename_i e ho
    have hw := origName_written.1 ho
    constructor
    · intro p n o hg
      rw [get_put] at hg
      split at hg
      · rename_i he
        cases hg
        exact ⟨i, by simp, by rw [hw, he]⟩
      · obtain ⟨j, hj, hw⟩ := h.sound p n o hg
        exact ⟨j, by simp [hj], hw⟩
    · intro j hj p n o hj'
      rw [get_put]
      split
      · rfl
      · rename_i hne
        rw [List.mem_append, List.mem_singleton] at hj
        rcases hj with hj | rfl
        · exact h.complete j hj p n o hj'
        · rw [hw] at hj'
          cases hj'
          exact absurd rfl hne

theorem Noted.skip {items : List Metadata} {m : List ((String × String) × String)} (h : Noted items m)
    {i : Metadata} (hw : written i = none) : Noted (items ++ [i]) m := by
  have : noteOrig m i = m := by
    rw [noteOrig]
    have : origName i = none := by
      cases ho : origName i with
      | none => rfl
      | some e => rw [origName_written.1 ho] at hw; cases hw
    rw [this]
  rw [← this]
  exact h.note i

theorem Noted.step {items : List Metadata} {c c' : Conv} {i : Metadata} (hi : Noted items c.origNames)
    (h : addItem c i = some c') : Noted (items ++ [i]) c'.origNames := by
  rcases item_cases i with ⟨cr, n, rfl⟩ | ⟨m, n, s, rfl⟩ | ⟨t, tr, rfl, hk⟩ | ⟨m, n, o, b, d, rfl⟩ |
    ⟨k, hk, hc⟩
  · simp only [addItem, Option.map_eq_some_iff] at h
    obtain ⟨ns, hu, rfl⟩ := h
    exact hi.skip rfl
  · simp only [addItem, Option.some.injEq] at h
    subst h
    exact hi.skip rfl
  · simp only [addItem, hk, reduceCtorEq] at h
  · simp only [addItem, Option.map_eq_some_iff] at h
    obtain ⟨ns, hu, rfl⟩ := h
    exact hi.skip rfl
  · obtain ⟨its, _, rfl⟩ := addItem_plain hk hc h
    exact hi.note i

theorem Noted.all {items : List Metadata} : ∀ {l : List Metadata} {c c' : Conv}, Noted items c.origNames →
    addItems c l = some c' → Noted (items ++ l) c'.origNames
  | [], c, c', hi, h => by
    cases h
    simpa using hi
  | i :: l, c, c', hi, h => by
    simp only [addItems, Option.bind_eq_some_iff] at h
    obtain ⟨c1, h1, h2⟩ := h
    have := Noted.all (hi.step h1) h2
    simpa using this

theorem noted_of {items : List Metadata} {c : Conv} (h : addItems {} items = some c) :
    Noted items c.origNames := by
  have h0 : Noted [] ([] : List ((String × String) × String)) := by
    constructor
    · intro p n o h; cases h
    · intro i hi; cases hi
  simpa using Noted.all (c := {}) h0 h

theorem Noted.rustName {items : List Metadata} {c : Conv} (h : Noted items c.origNames) (m n : String) :
    RustName items m n (origOf c m n) := by
  rw [origOf]
  split
  · rename_i o hg
    exact .inl (h.sound m n o hg)
  · rename_i hg
    refine .inr ⟨rfl, ?_⟩
    intro i hi o' hw
    have := h.complete i hi m n o' hw
    rw [hg] at this
    cases this

theorem mapTy_refers {items : List Metadata} {c : Conv} (hi : Inv items c) (hn : Noted items c.origNames) :
    ∀ {t : MTy} {t' : ITy}, mapTy c t = some t' → Refers items t t' := by
  intro t
  induction t with
  | object m n i | record m n | enum m n | callbackInterface m n =>
    intro t' h
    simp only [mapTy, Option.map_eq_some_iff] at h
    obtain ⟨ns, h1, rfl⟩ := h
    exact ⟨ns, _, nsName_sound hi h1, hn.rustName m n, rfl⟩
  | custom m n b ih =>
    intro t' h
    simp only [mapTy, Option.bind_eq_some_iff, Option.map_eq_some_iff] at h
    obtain ⟨ns, h1, b', h2, rfl⟩ := h
    exact ⟨ns, _, b', nsName_sound hi h1, hn.rustName m n, ih h2, rfl⟩
  | optional t ih | box t ih | sequence t ih | set t ih =>
    intro t' h
    simp only [mapTy, Option.map_eq_some_iff] at h
    obtain ⟨b, h1, rfl⟩ := h
    exact ⟨b, ih h1, rfl⟩
  | map k v ihk ihv =>
    intro t' h
    simp only [mapTy, Option.bind_eq_some_iff, Option.map_eq_some_iff] at h
    obtain ⟨k', h1, v', h2, rfl⟩ := h
    exact ⟨k', v', ihk h1, ihv h2, rfl⟩
  | _ =>
    intro t' h
    cases h
    rfl

/-! ### The order of members -/

theorem Inv.children_sorted {items : List Metadata} {c : Conv} (hi : Inv items c) (k : Kind)
    (cr p : String) : (children c k cr p).Pairwise fun a b =>
      ∃ ka kb, keyOf a = some ka ∧ keyOf b = some kb ∧ ka.name ≤ kb.name := by
  rw [children, List.pairwise_map]
  refine (List.Pairwise.and_mem.1 (sortBy_sorted keyLe_trans keyLe_total _)).imp ?_
  intro a b ⟨ha, hb, h⟩
  rw [mem_sortBy, List.mem_filter, decide_eq_true_eq] at ha hb
  refine ⟨a.1, b.1, (hi.sound _ _ ha.1).2, (hi.sound _ _ hb.1).2, ?_⟩
  simp only [keyLe, decide_eq_true_eq] at h
  rw [ha.2.2.1, ha.2.2.2, hb.2.2.1, hb.2.2.2] at h
  rw [List.cons_le_cons_iff] at h
  rcases h with h | ⟨_, h⟩
  · exact absurd h (Std.lt_irrefl)
  · rw [List.cons_le_cons_iff] at h
    rcases h with h | ⟨_, h⟩
    · exact absurd h (Std.lt_irrefl)
    · exact h

theorem singleton_le {a b : String} (h : [a] ≤ [b]) : a ≤ b := by
  rw [List.cons_le_cons_iff] at h
  rcases h with h | ⟨h, _⟩
  · exact Std.le_of_lt h
  · exact h ▸ Std.le_refl a

theorem Inv.ctors_sorted {items : List Metadata} {c : Conv} (hi : Inv items c) (cr p : String) :
    (children c .ctor cr p).Pairwise fun a b => memberName a ≤ memberName b := by
  refine (List.Pairwise.and_mem.1 (hi.children_sorted .ctor cr p)).imp ?_
  rintro a b ⟨ha, hb, ka, kb, h1, h2, h3⟩
  obtain ⟨_, x, hx⟩ := hi.mem_ctors.1 ha
  obtain ⟨_, y, hy⟩ := hi.mem_ctors.1 hb
  rw [keyOf_role, hx] at h1
  rw [keyOf_role, hy] at h2
  cases h1; cases h2
  simp only [memberName, hx, hy]
  exact singleton_le h3

theorem Inv.builtins_sorted {items : List Metadata} {c : Conv} (hi : Inv items c) (cr p : String) :
    (children c .builtin cr p).Pairwise fun a b => memberName a ≤ memberName b := by
  refine (List.Pairwise.and_mem.1 (hi.children_sorted .builtin cr p)).imp ?_
  rintro a b ⟨ha, hb, ka, kb, h1, h2, h3⟩
  obtain ⟨_, x, hx⟩ := hi.mem_builtins.1 ha
  obtain ⟨_, y, hy⟩ := hi.mem_builtins.1 hb
  rw [keyOf_role, hx] at h1
  rw [keyOf_role, hy] at h2
  cases h1; cases h2
  simp only [memberName, hx, hy]
  exact singleton_le h3

theorem role_method {i : Metadata} {cr p n : String} (h : role i = some (.method cr p n)) :
    ∃ m, i = .method m ∧ m.fn.name = n := by
  cases i <;> simp only [role, reduceCtorEq, Option.some.injEq, Role.method.injEq] at h
  case method m => exact ⟨m, rfl, h.2.2⟩
  case uniffiTrait t => cases t <;> cases h
  case objectTraitImpl t tr => cases t <;> cases h

theorem role_traitMethod {i : Metadata} {cr p n : String} (h : role i = some (.traitMethod cr p n)) :
    ∃ t x f, i = .traitMethod t x f := by
  cases i <;> simp only [role, reduceCtorEq, Option.some.injEq] at h
  case traitMethod t x f => exact ⟨t, x, f, rfl⟩
  case uniffiTrait t => cases t <;> cases h
  case objectTraitImpl t tr => cases t <;> cases h

theorem Inv.methods_sorted {items : List Metadata} {c : Conv} (hi : Inv items c) {cr p : String}
    {l : List Metadata} (h : methodsFor c cr p = some l) : l.Pairwise Before := by
  rcases methodsFor_some h with ⟨rfl, _⟩ | ⟨rfl, _⟩
  · refine (List.Pairwise.and_mem.1 (hi.children_sorted .method cr p)).imp ?_
    rintro a b ⟨ha, hb, ka, kb, h1, h2, h3⟩
    obtain ⟨_, x, hx⟩ := hi.mem_methods.1 ha
    obtain ⟨_, y, hy⟩ := hi.mem_methods.1 hb
    rw [keyOf_role, hx] at h1
    rw [keyOf_role, hy] at h2
    cases h1; cases h2
    obtain ⟨m, rfl, rfl⟩ := role_method hx
    obtain ⟨m', rfl, rfl⟩ := role_method hy
    exact singleton_le h3
  · refine (List.Pairwise.and_mem.1
      (sortBy_sorted (le := fun a b => decide (indexOf a ≤ indexOf b)) ?_ ?_ _)).imp ?_
    · intro a b c
      simp only [decide_eq_true_eq]
      exact Nat.le_trans
    · intro a b
      simp only [decide_eq_true_eq]
      exact Nat.le_total _ _
    · rintro a b ⟨ha, hb, h⟩
      rw [mem_sortBy] at ha hb
      obtain ⟨_, x, hx⟩ := hi.mem_traitMethods.1 ha
      obtain ⟨_, y, hy⟩ := hi.mem_traitMethods.1 hb
      obtain ⟨t, x, f, rfl⟩ := role_traitMethod hx
      obtain ⟨t', x', f', rfl⟩ := role_traitMethod hy
      exact UInt32.le_iff_toNat_le.2 (of_decide_eq_true h)

theorem Inv.mem_methodsFor {items : List Metadata} {c : Conv} (hi : Inv items c) {cr p : String}
    {l : List Metadata} (h : methodsFor c cr p = some l) {i : Metadata} :
    i ∈ l ↔ i ∈ items ∧ ∃ x, role i = some (.method cr p x) ∨ role i = some (.traitMethod cr p x) := by
  rcases methodsFor_some h with ⟨rfl, he⟩ | ⟨rfl, he⟩
  · rw [hi.mem_methods]
    constructor
    · rintro ⟨h1, x, hx⟩
      exact ⟨h1, x, .inl hx⟩
    · rintro ⟨h1, x, hx | hx⟩
      · exact ⟨h1, x, hx⟩
      · have := hi.mem_traitMethods.2 ⟨h1, x, hx⟩
        rw [he] at this
        cases this
  · rw [mem_sortBy, hi.mem_traitMethods]
    constructor
    · rintro ⟨h1, x, hx⟩
      exact ⟨h1, x, .inr hx⟩
    · rintro ⟨h1, x, hx | hx⟩
      · have := hi.mem_methods.2 ⟨h1, x, hx⟩
        rw [he] at this
        cases this
      · exact ⟨h1, x, hx⟩

theorem Inv.methodsFor_nodup {items : List Metadata} {c : Conv} (hi : Inv items c) {cr p : String}
    {l : List Metadata} (h : methodsFor c cr p = some l) : l.Nodup := by
  rcases methodsFor_some h with ⟨rfl, he⟩ | ⟨rfl, he⟩
  · exact hi.children_nodup _ _ _
  · exact (sortBy_perm _).nodup_iff.2 (hi.children_nodup _ _ _)

/-! ### Custom types in a `ComponentInterface` -/

/-- What the list of custom types says. -/
structure CInv (l cs : List Metadata) : Prop where
  sound : ∀ e ∈ cs, isCustom e = true ∧ (∃ i ∈ l, SameCustom e i) ∧
    (customDoc e ≠ none → ∃ i ∈ l, SameCustom e i ∧ customDoc i = customDoc e)
  complete : ∀ i ∈ l, isCustom i = true → ∃ e ∈ cs, SameCustom e i ∧
    ((customDoc i).isSome → (customDoc e).isSome)
  nodup : (cs.map defName).Nodup

theorem addCustomDef_spec {i : Metadata} (hc : isCustom i = true) : ∀ {cs cs' : List Metadata},
    (∀ e ∈ cs, isCustom e = true) → addCustomDef cs i = some cs' →
    (∀ e' ∈ cs', e' ∈ cs ∨ (SameCustom e' i ∧ customDoc e' = customDoc i)) ∧
    (∀ e ∈ cs, ∃ e' ∈ cs', SameCustom e' e ∧ ((customDoc e).isSome → (customDoc e').isSome)) ∧
    (∃ e' ∈ cs', SameCustom e' i ∧ ((customDoc i).isSome → (customDoc e').isSome)) ∧
    (∀ e' ∈ cs', isCustom e' = true) ∧
    (cs'.map defName = cs.map defName ∨ cs'.map defName = cs.map defName ++ [defName i] ∧
      ∀ e ∈ cs, defName e ≠ defName i)
  | [], cs', _, h => by
    cases h
    cases i <;> simp [isCustom] at hc
    simp [SameCustom, isCustom]
  | old :: cs, cs', hall, h => by
    have ho := hall old (by simp)
    cases old <;> simp only [isCustom, Bool.false_eq_true] at ho
    cases i <;> simp only [isCustom, Bool.false_eq_true] at hc
    rename_i m' n' o' b' d' m n o b d
    have hrefl : ∀ e ∈ cs, SameCustom e e := by
      intro e he
      have := hall e (by simp [he])
      cases e <;> simp [isCustom] at this
      simp [SameCustom]
    simp only [addCustomDef] at h
    by_cases hn : n' = n
    · subst hn
      simp only [if_true] at h
      by_cases hb : b' = b ∧ m' = m
      · obtain ⟨rfl, rfl⟩ := hb
        simp only [and_self, if_true] at h
        split at h
        · rename_i hd
          cases h
          refine ⟨?_, ?_, ?_, ?_, ?_⟩
          · intro e' he'
            rcases List.mem_cons.1 he' with rfl | he'
            · right; simp [SameCustom, customDoc]
            · left; simp [he']
          · intro e he
            rcases List.mem_cons.1 he with rfl | he
            · exact ⟨_, List.mem_cons_self, by simp [SameCustom], fun _ => hd.1⟩
            · exact ⟨e, by simp [he], hrefl e he, fun h => h⟩
          · exact ⟨_, List.mem_cons_self, by simp [SameCustom], fun _ => hd.1⟩
          · intro e' he'
            rcases List.mem_cons.1 he' with rfl | he'
            · rfl
            · exact hall e' (by simp [he'])
          · left; simp [defName]
        · rename_i hd
          cases h
          refine ⟨?_, ?_, ?_, ?_, ?_⟩
          · intro e' he'; exact .inl he'
          · intro e he
            rcases List.mem_cons.1 he with rfl | he
            · exact ⟨_, List.mem_cons_self, by simp [SameCustom], fun h => h⟩
            · exact ⟨e, by simp [he], hrefl e he, fun h => h⟩
          · refine ⟨_, List.mem_cons_self, by simp [SameCustom], ?_⟩
            intro hs
            simp only [customDoc] at hs ⊢
            cases hd' : d' with
            | none => exact absurd ⟨hs, by simp [hd']⟩ hd
            | some _ => rfl
          · exact hall
          · left; rfl
      · simp [hb] at h
    · simp only [hn, if_false, Option.map_eq_some_iff] at h
      obtain ⟨l1, h1, rfl⟩ := h
      obtain ⟨p1, p2, ⟨x, hx, p3⟩, p4, p5⟩ := addCustomDef_spec (i := .customType m n o b d) rfl
        (fun e he => hall e (by simp [he])) h1
      refine ⟨?_, ?_, ?_, ?_, ?_⟩
      · intro e' he'
        rcases List.mem_cons.1 he' with rfl | he'
        · left; simp
        · rcases p1 e' he' with h | h
          · left; simp [h]
          · exact .inr h
      · intro e he
        rcases List.mem_cons.1 he with rfl | he
        · exact ⟨_, List.mem_cons_self, by simp [SameCustom], fun h => h⟩
        · obtain ⟨e', he', hh⟩ := p2 e he
          exact ⟨e', by simp [he'], hh⟩
      · exact ⟨x, by simp [hx], p3⟩
      · intro e' he'
        rcases List.mem_cons.1 he' with rfl | he'
        · rfl
        · exact p4 e' he'
      · rcases p5 with p5 | ⟨p5, p6⟩
        · left; simp [p5]
        · right
          refine ⟨by simp [p5], ?_⟩
          intro e he
          rcases List.mem_cons.1 he with rfl | he
          · simp [defName, hn]
          · exact p6 e he

theorem CInv.skip {l cs : List Metadata} (h : CInv l cs) {i : Metadata} (hc : isCustom i = false) :
    CInv (l ++ [i]) cs where
  sound := by
    intro e he
    obtain ⟨h1, ⟨j, hj, h2⟩, h3⟩ := h.sound e he
    refine ⟨h1, ⟨j, by simp [hj], h2⟩, ?_⟩
    intro hd
    obtain ⟨k, hk, h4⟩ := h3 hd
    exact ⟨k, by simp [hk], h4⟩
  complete := by
    intro j hj hjc
    rw [List.mem_append, List.mem_singleton] at hj
    rcases hj with hj | rfl
    · exact h.complete j hj hjc
    · rw [hc] at hjc; cases hjc
  nodup := h.nodup

theorem CInv.add {l cs cs' : List Metadata} (h : CInv l cs) {i : Metadata} (hc : isCustom i = true)
    (ha : addCustomDef cs i = some cs') : CInv (l ++ [i]) cs' := by
  obtain ⟨p1, p2, ⟨x, hx, p3⟩, p4, p5⟩ := addCustomDef_spec hc (fun e he => (h.sound e he).1) ha
  constructor
  · intro e he
    refine ⟨p4 e he, ?_, ?_⟩
    · rcases p1 e he with h1 | h1
      · obtain ⟨_, ⟨j, hj, h2⟩, _⟩ := h.sound e h1
        exact ⟨j, by simp [hj], h2⟩
      · exact ⟨i, by simp, h1.1⟩
    · intro hd
      rcases p1 e he with h1 | h1
      · obtain ⟨j, hj, h2⟩ := (h.sound e h1).2.2 hd
        exact ⟨j, by simp [hj], h2⟩
      · exact ⟨i, by simp, h1.1, h1.2.symm⟩
  · intro j hj hjc
    rw [List.mem_append, List.mem_singleton] at hj
    rcases hj with hj | rfl
    · obtain ⟨e, he, h1, h2⟩ := h.complete j hj hjc
      obtain ⟨e', he', h3, h4⟩ := p2 e he
      exact ⟨e', he', h3.trans h1, fun h => h4 (h2 h)⟩
    · exact ⟨x, hx, p3⟩
  · rcases p5 with p5 | ⟨p5, p6⟩
    · rw [p5]; exact h.nodup
    · rw [p5, List.nodup_append]
      refine ⟨h.nodup, by simp, ?_⟩
      intro a ha b hb
      obtain ⟨e, he, rfl⟩ := List.mem_map.1 ha
      rw [List.mem_singleton] at hb
      subst hb
      exact p6 e he

theorem customs_same {ci ci' : Ci} {n : String} {f : TypeDef → TypeDef} (h : Adds ci ci' n f) :
    ci'.customs = ci.customs := by
  rw [h.1]
  rfl

theorem CInv.step {l : List Metadata} {ci ci' : Ci} {i : Metadata} (hi : CInv l ci.customs)
    (hd : Distinct ci) (h : addToCi ci i = some ci') : CInv (l ++ [i]) ci'.customs := by
  cases i
  case namespace_ => cases h
  case customType =>
    simp only [addToCi, Option.map_eq_some_iff] at h
    obtain ⟨cs, hcs, rfl⟩ := h
    exact hi.add rfl hcs
  case udlFile | object | callbackInterface => cases h; exact hi.skip rfl
  case func | record | enum =>
    simp only [addToCi] at h
    split at h
    · cases h
    · cases h; exact hi.skip rfl
  case constructor =>
    rw [customs_same (addCtor_adds hd h)]; exact hi.skip rfl
  case method =>
    rw [customs_same (addMethod_adds hd h)]; exact hi.skip rfl
  case traitMethod =>
    rw [customs_same (addTraitMethod_adds hd h)]; exact hi.skip rfl
  case uniffiTrait =>
    rw [customs_same (addBuiltin_adds hd h)]; exact hi.skip rfl
  case objectTraitImpl =>
    obtain ⟨o, _, ha⟩ := addImpl_adds hd h
    rw [customs_same ha]; exact hi.skip rfl

theorem CInv.all {l0 : List Metadata} : ∀ {l : List Metadata} {ci ci' : Ci}, LInv l0 ci →
    CInv l0 ci.customs → (names (l0 ++ l)).Nodup → addAllToCi ci l = some ci' → CInv (l0 ++ l) ci'.customs
  | [], ci, ci', _, hi, _, h => by
    cases h
    simpa using hi
  | i :: l, ci, ci', hl, hi, hn, h => by
    simp only [addAllToCi, Option.bind_eq_some_iff] at h
    obtain ⟨c1, h1, h2⟩ := h
    have hn' : (names (l0 ++ [i])).Nodup := by
      have : l0 ++ i :: l = (l0 ++ [i]) ++ l := by simp
      rw [this] at hn
      simp only [names, List.filterMap_append] at hn ⊢
      exact (List.nodup_append.1 hn).1
    have hn0 : (names l0).Nodup := by
      simp only [names, List.filterMap_append] at hn ⊢
      exact (List.nodup_append.1 hn).1
    have := CInv.all (hl.step hn' h1) (hi.step (hl.distinct hn0) h1) (by simpa using hn) h2
    simpa using this

theorem cinv_of {l : List Metadata} {ci : Ci} (hn : (names l).Nodup)
    (h : addAllToCi {} l = some ci) : CInv l ci.customs := by
  have h0 : CInv [] ([] : List Metadata) := by constructor <;> simp
  simpa using CInv.all linv_nil h0 (by simpa using hn) h

/-! ### Members that types cannot have -/

/-- Implementations are with objects, constructors and built-in traits not with callback interfaces. -/
structure Bare (ci : Ci) : Prop where
  records : ∀ o ∈ ci.records, o.impls = []
  enums : ∀ o ∈ ci.enums, o.impls = []
  callbacks : ∀ o ∈ ci.callbacks, o.impls = [] ∧ o.ctors = [] ∧ o.builtins = []

theorem changeFirst_mem {n : String} {f : TypeDef → TypeDef} : ∀ {l l' : List TypeDef},
    changeFirst n f l = some l' → ∀ o' ∈ l', o' ∈ l ∨ ∃ o ∈ l, o' = f o
  | [], _, h => by cases h
  | o :: l, l', h => by
    rw [changeFirst] at h
    split at h
    · cases h
      intro o' ho'
      rcases List.mem_cons.1 ho' with rfl | ho'
      · exact .inr ⟨o, by simp, rfl⟩
      · exact .inl (by simp [ho'])
    · simp only [Option.map_eq_some_iff] at h
      obtain ⟨l1, h1, rfl⟩ := h
      intro o' ho'
      rcases List.mem_cons.1 ho' with rfl | ho'
      · exact .inl (by simp)
      · rcases changeFirst_mem h1 o' ho' with h | ⟨x, hx, h⟩
        · exact .inl (by simp [h])
        · exact .inr ⟨x, by simp [hx], h⟩

theorem changeFirst_all {n : String} {f : TypeDef → TypeDef} {l l' : List TypeDef} {P : TypeDef → Prop}
    (h : changeFirst n f l = some l') (hp : ∀ o ∈ l, P o) (hf : ∀ o, P o → P (f o)) : ∀ o ∈ l', P o := by
  intro o ho
  rcases changeFirst_mem h o ho with h | ⟨x, hx, rfl⟩
  · exact hp o h
  · exact hf x (hp x hx)

theorem Bare.ctor {ci ci' : Ci} {n : String} {i : Metadata} (hb : Bare ci)
    (h : addCtor ci n i = some ci') : Bare ci' := by
  simp only [addCtor] at h
  split at h
  · cases h; exact ⟨hb.records, hb.enums, hb.callbacks⟩
  · split at h
    · rename_i hr; cases h
      exact ⟨changeFirst_all hr hb.records fun _ h => h, hb.enums, hb.callbacks⟩
    · simp only [Option.map_eq_some_iff] at h
      obtain ⟨l, hl, rfl⟩ := h
      exact ⟨hb.records, changeFirst_all hl hb.enums fun _ h => h, hb.callbacks⟩

theorem Bare.method {ci ci' : Ci} {n : String} {i : Metadata} (hb : Bare ci)
    (h : addMethod ci n i = some ci') : Bare ci' := by
  simp only [addMethod] at h
  split at h
  · cases h; exact ⟨hb.records, hb.enums, hb.callbacks⟩
  · split at h
    · rename_i hr; cases h
      exact ⟨changeFirst_all hr hb.records fun _ h => h, hb.enums, hb.callbacks⟩
    · simp only [Option.map_eq_some_iff] at h
      obtain ⟨l, hl, rfl⟩ := h
      exact ⟨hb.records, changeFirst_all hl hb.enums fun _ h => h, hb.callbacks⟩

theorem Bare.builtin {ci ci' : Ci} {n : String} {i : Metadata} (hb : Bare ci)
    (h : addBuiltin ci n i = some ci') : Bare ci' := by
  simp only [addBuiltin] at h
  split at h
  · cases h; exact ⟨hb.records, hb.enums, hb.callbacks⟩
  · split at h
    · rename_i hr; cases h
      exact ⟨hb.records, changeFirst_all hr hb.enums fun _ h => h, hb.callbacks⟩
    · simp only [Option.map_eq_some_iff] at h
      obtain ⟨l, hl, rfl⟩ := h
      exact ⟨changeFirst_all hl hb.records fun _ h => h, hb.enums, hb.callbacks⟩

theorem Bare.step {ci ci' : Ci} {i : Metadata} (hb : Bare ci) (h : addToCi ci i = some ci') :
    Bare ci' := by
  cases i
  case namespace_ => cases h
  case customType =>
    simp only [addToCi, Option.map_eq_some_iff] at h
    obtain ⟨cs, _, rfl⟩ := h
    exact ⟨hb.records, hb.enums, hb.callbacks⟩
  case udlFile => cases h; exact hb
  case func =>
    simp only [addToCi] at h
    split at h
    · cases h
    · cases h; exact ⟨hb.records, hb.enums, hb.callbacks⟩
  case object => cases h; exact ⟨hb.records, hb.enums, hb.callbacks⟩
  case record =>
    simp only [addToCi] at h
    split at h
    · cases h
    · cases h
      refine ⟨?_, hb.enums, hb.callbacks⟩
      intro o ho
      rcases List.mem_append.1 ho with ho | ho
      · exact hb.records o ho
      · rw [List.mem_singleton.1 ho]
  case enum =>
    simp only [addToCi] at h
    split at h
    · cases h
    · cases h
      refine ⟨hb.records, ?_, hb.callbacks⟩
      intro o ho
      rcases List.mem_append.1 ho with ho | ho
      · exact hb.enums o ho
      · rw [List.mem_singleton.1 ho]
  case callbackInterface =>
    cases h
    refine ⟨hb.records, hb.enums, ?_⟩
    intro o ho
    rcases List.mem_append.1 ho with ho | ho
    · exact hb.callbacks o ho
    · rw [List.mem_singleton.1 ho]; exact ⟨rfl, rfl, rfl⟩
  case constructor => exact hb.ctor h
  case method => exact hb.method h
  case uniffiTrait => exact hb.builtin h
  case traitMethod =>
    simp only [addToCi, addTraitMethod] at h
    split at h
    · split at h
      · cases h
      · simp only [Option.map_eq_some_iff] at h
        obtain ⟨l, hl, rfl⟩ := h
        exact ⟨hb.records, hb.enums, changeFirst_all hl hb.callbacks fun _ h => h⟩
    · exact hb.method h
  case objectTraitImpl =>
    simp only [addToCi, addImpl, Option.bind_eq_some_iff, Option.map_eq_some_iff] at h
    obtain ⟨_, _, l, _, rfl⟩ := h
    exact ⟨hb.records, hb.enums, hb.callbacks⟩

theorem Bare.all : ∀ {l : List Metadata} {ci ci' : Ci}, Bare ci → addAllToCi ci l = some ci' → Bare ci'
  | [], _, _, hb, h => by cases h; exact hb
  | i :: l, ci, ci', hb, h => by
    simp only [addAllToCi, Option.bind_eq_some_iff] at h
    obtain ⟨c1, h1, h2⟩ := h
    exact (hb.step h1).all h2

theorem bare_of {l : List Metadata} {ci : Ci} (h : addAllToCi {} l = some ci) : Bare ci :=
  Bare.all ⟨by simp, by simp, by simp⟩ h

theorem mapDef_bare {c : Conv} {i : Metadata} {d : TypeDef} (h : mapDef c i = some d) :
    (isObject i = false → d.impls = []) ∧ (isCallback i = true → d.ctors = [] ∧ d.builtins = []) := by
  cases i <;> simp only [mapDef, reduceCtorEq, bind, Option.bind_eq_some_iff, Option.some.injEq] at h
  case record | enum =>
    obtain ⟨_, _, _, _, _, _, _, _, rfl⟩ := h
    exact ⟨fun _ => rfl, nofun⟩
  case object =>
    exact ⟨nofun, nofun⟩
  case callbackInterface =>
    obtain ⟨_, _, rfl⟩ := h
    exact ⟨fun _ => rfl, fun _ => ⟨rfl, rfl⟩⟩
  case customType =>
    obtain ⟨_, _, rfl⟩ := h
    exact ⟨fun _ => rfl, nofun⟩

theorem undash_id {s : String} (h : '-' ∉ s.toList) :
    (s.toList.map fun ch => if ch = '-' then '_' else ch) = s.toList := by
  conv => rhs; rw [← List.map_id s.toList]
  refine List.map_congr_left ?_
  intro a ha
  have : a ≠ '-' := by rintro rfl; exact h ha
  simp [this]

theorem ctorIn_iff {n : String} {i : Metadata} : ctorIn n i = true ↔ ∃ c x, role i = some (.ctor c n x) := by
  rw [ctorIn]
  split
  · rename_i c o x hr
    simp [hr]
  · rename_i hno
    simp only [Bool.false_eq_true, false_iff, not_exists]
    exact fun c x => hno c n x

theorem builtinIn_iff {n : String} {i : Metadata} :
    builtinIn n i = true ↔ ∃ c x, role i = some (.builtin c n x) := by
  rw [builtinIn]
  split
  · rename_i c o x hr
    simp [hr]
  · rename_i hno
    simp only [Bool.false_eq_true, false_iff, not_exists]
    exact fun c x => hno c n x

theorem implIn_iff {n : String} {i : Metadata} : implIn n i = true ↔ ∃ c x, role i = some (.impl c n x) := by
  rw [implIn]
  split
  · rename_i c o x hr
    simp [hr]
  · rename_i hno
    simp only [Bool.false_eq_true, false_iff, not_exists]
    exact fun c x => hno c n x

theorem methodIn_iff {n : String} {i : Metadata} : methodIn n i = true ↔
    ∃ c x, role i = some (.method c n x) ∨ role i = some (.traitMethod c n x) := by
  rw [methodIn]
  split
  · rename_i c o x hr
    simp [hr]
  · rename_i c o x hr
    simp [hr]
  · rename_i h1 h2
    simp only [Bool.false_eq_true, false_iff, not_exists, not_or]
    exact fun c x => ⟨h1 c n x, h2 c n x⟩

theorem isFunction_iff {i : Metadata} : isFunction i = true ↔ ∃ c n, role i = some (.function c n) := by
  rw [isFunction]
  split
  · rename_i c o hr
    simp [hr]
  · rename_i hno
    simp only [Bool.false_eq_true, false_iff, not_exists]
    exact fun c x => hno c x

end Verif.Gen.Assemble
