import Verif.Gen.ConfigSpec
namespace Verif.Gen.Config

theorem get_set (a : Table) (k : String) (w : Value) (x : String) :
    (a.set k w).get x = if k = x then (a.get x).map fun _ => w else a.get x := by
  match a with
  | .nil => simp [Table.set, Table.get]
  | .cons k' v r =>
    have ih := get_set r k w x
    unfold Table.set
    by_cases h : k' = k
    · rw [if_pos h]
      unfold Table.get
      by_cases hx : k' = x
      · have : k = x := h ▸ hx
        simp [hx, this]
      · have : ¬ k = x := fun e => hx (h.trans e)
        simp [hx, this]
    · rw [if_neg h]
      unfold Table.get
      by_cases hx : k' = x
      · have : ¬ k = x := fun e => h (hx.trans e.symm)
        simp [hx, this]
      · simp only [hx, if_false]
        exact ih

theorem get_insert (a : Table) (k : String) (w : Value) (hk : a.get k = none) (x : String) :
    (a.insert k w).get x = if k = x then some w else a.get x := by
  match a with
  | .nil => simp [Table.insert, Table.get]
  | .cons k' v r =>
    unfold Table.get at hk
    by_cases h : k' = k
    · rw [if_pos h] at hk; cases hk
    · rw [if_neg h] at hk
      have ih := get_insert r k w hk x
      unfold Table.insert Table.get
      by_cases hx : k' = x
      · have : ¬ k = x := fun e => h (hx.trans e.symm)
        simp [hx, this]
      · simp only [hx, if_false]
        exact ih

theorem get_cons (k : String) (v : Value) (r : Table) (x : String) :
    (Table.cons k v r).get x = if k = x then some v else r.get x := by
  conv => lhs; unfold Table.get

theorem get_none {t : Table} {k : String} (h : k ∉ t.keys) : t.get k = none := by
  match t with
  | .nil => rfl
  | .cons k' v r =>
    unfold Table.keys at h
    simp only [List.mem_cons, not_or] at h
    unfold Table.get
    rw [if_neg (fun e => h.1 e.symm)]
    exact get_none h.2

theorem get_proper {t : Table} {k : String} {v : Value} (h : t.Proper) (hg : t.get k = some v) : v.Proper := by
  match t with
  | .nil => cases hg
  | .cons k' v' r =>
    unfold Table.Proper at h
    unfold Table.get at hg
    split at hg
    · cases hg; exact h.2.1
    · exact get_proper h.2.2 hg

theorem get_size {t : Table} {k : String} {v : Value} (hg : t.get k = some v) : sizeOf v < sizeOf t := by
  match t with
  | .nil => cases hg
  | .cons k' v' r =>
    unfold Table.get at hg
    split at hg
    · cases hg; simp only [Table.cons.sizeOf_spec]; omega
    · have := get_size hg; simp only [Table.cons.sizeOf_spec]; omega

/-- What a merge does to one key. -/
theorem merge_get {b : Table} : ∀ {a : Table}, b.Proper →
    match Table.merge a b with
    | some r => ∀ k, r.get k = match b.get k, a.get k with
        | none, x => x
        | some v, none => some v
        | some v, some e => Value.mergeOver e v
    | none => ∃ k v e, b.get k = some v ∧ a.get k = some e ∧ Value.mergeOver e v = none := by
  match b with
  | .nil =>
    intro a _
    simp only [Table.merge]
    intro k
    simp [Table.get]
  | .cons key value rest =>
    intro a h
    have hp := h
    unfold Table.Proper at h
    obtain ⟨h1, h2, h3⟩ := h
    have hn := get_none h1
    unfold Table.merge
    cases ha : a.get key with
    | none =>
      simp only
      have ih := merge_get (b := rest) (a := a.insert key value) h3
      cases hm : Table.merge (a.insert key value) rest with
      | none =>
        rw [hm] at ih
        obtain ⟨k, v, e, e1, e2, e3⟩ := ih
        have hk : ¬ key = k := fun e => by rw [← e, hn] at e1; cases e1
        refine ⟨k, v, e, ?_, ?_, e3⟩
        · unfold Table.get; rw [if_neg hk]; exact e1
        · rw [get_insert _ _ _ ha, if_neg hk] at e2; exact e2
      | some r =>
        rw [hm] at ih
        intro k
        have := ih k
        rw [this, get_insert _ _ _ ha]
        rw [get_cons]
        by_cases hk : key = k
        · subst hk; simp [hn, ha]
        · simp [hk]
    | some e =>
      simp only
      cases hv : Value.mergeOver e value with
      | none =>
        refine ⟨key, value, e, ?_, ha, hv⟩
        unfold Table.get; simp
      | some v =>
        simp only
        have ih := merge_get (b := rest) (a := a.set key v) h3
        cases hm : Table.merge (a.set key v) rest with
        | none =>
          rw [hm] at ih
          obtain ⟨k, v', e', e1, e2, e3⟩ := ih
          have hk : ¬ key = k := fun e => by rw [← e, hn] at e1; cases e1
          refine ⟨k, v', e', ?_, ?_, e3⟩
          · unfold Table.get; rw [if_neg hk]; exact e1
          · rw [get_set, if_neg hk] at e2; exact e2
        | some r =>
          rw [hm] at ih
          intro k
          have := ih k
          rw [this, get_set]
          rw [get_cons]
          by_cases hk : key = k
          · subst hk; simp [hn, ha, hv]
          · simp [hk]

/-- What is at a path, without the contents of tables. -/
def Table.info (t : Table) (p : List String) : Option (Option (Kind × String)) :=
  match t.at p with
  | some (.leaf k v) => some (some (k, v))
  | some (.table _) => some none
  | none => none

theorem setting_info (t : Table) (p : List String) : t.setting p = (t.info p).join := by
  unfold Table.setting Table.info
  cases t.at p with
  | none => rfl
  | some v => cases v <;> rfl

theorem type_info (t : Table) (p : List String) : t.type p = (t.info p).map (·.map (·.1)) := by
  unfold Table.type Table.info
  cases t.at p with
  | none => rfl
  | some v => cases v <;> rfl

theorem info_nil (t : Table) : t.info [] = some none := by simp [Table.info, Table.at]

theorem info_cons (t : Table) (k : String) (ks : List String) : t.info (k :: ks) = match t.get k with
    | some (.table t') => t'.info ks
    | some (.leaf kd v) => if ks = [] then some (some (kd, v)) else none
    | none => none := by
  unfold Table.info
  conv => lhs; unfold Table.at
  cases t.get k with
  | none => rfl
  | some v =>
    cases v with
    | table t' => rfl
    | leaf kd v =>
      by_cases h : ks = []
      · subst h; rfl
      · simp [h]

theorem mergeOver_some {e v w : Value} (h : Value.mergeOver e v = some w) :
    (∃ t0 t1 t, e = .table t0 ∧ v = .table t1 ∧ w = .table t ∧ Table.merge t0 t1 = some t) ∨
    (∃ k x y, e = .leaf k x ∧ v = .leaf k y ∧ w = .leaf k y) := by
  cases v with
  | table t1 =>
    cases e with
    | table t0 =>
      simp only [Value.mergeOver, Option.map_eq_some_iff] at h
      obtain ⟨t, h1, h2⟩ := h
      exact .inl ⟨t0, t1, t, rfl, rfl, h2.symm, h1⟩
    | leaf k x => simp [Value.mergeOver] at h
  | leaf k y =>
    cases e with
    | table t0 => simp [Value.mergeOver] at h
    | leaf k' x =>
      simp only [Value.mergeOver] at h
      split at h
      · rename_i e; subst e; cases h; exact .inr ⟨k', x, y, rfl, rfl, rfl⟩
      · cases h

theorem merge_info : ∀ (p : List String) {a b r : Table}, b.Proper → Table.merge a b = some r →
    r.info p = (b.info p).or (a.info p) ∧ (∀ x y, a.type p = some x → b.type p = some y → x = y)
  | [], a, b, r, hp, h => by
    rw [info_nil, info_nil, info_nil, type_info, type_info, info_nil, info_nil]
    refine ⟨rfl, ?_⟩
    intro x y hx hy
    cases hx; cases hy; rfl
  | k :: ks, a, b, r, hp, h => by
    have hm := merge_get (a := a) hp
    rw [h] at hm
    have hk := hm k
    rw [type_info, type_info, info_cons, info_cons, info_cons, hk]
    cases hb : b.get k with
    | none => simp
    | some v =>
      cases ha : a.get k with
      | none => cases v <;> simp
      | some e =>
        simp only
        rw [hb, ha] at hk
        simp only at hk
        cases hv : Value.mergeOver e v with
        | none =>
          -- the merge would have failed
          exfalso
          obtain ⟨r', hr'⟩ : ∃ w, Value.mergeOver e v = some w := by
            have : (r.get k).isSome := by
              rw [hk, hv]
              exact absurd_none hp h hb ha hv
            rw [hk] at this
            exact Option.isSome_iff_exists.1 this
          rw [hv] at hr'; cases hr'
        | some w =>
          rcases mergeOver_some hv with ⟨t0, t1, t, e1, e2, e3, e4⟩ | ⟨kd, x, y, e1, e2, e3⟩
          · subst e1 e2 e3
            have ih := merge_info ks (get_proper hp hb) e4
            refine ⟨ih.1, ?_⟩
            have := ih.2
            rw [type_info, type_info] at this
            exact this
          · subst e1 e2 e3
            by_cases hks : ks = []
            · simp [hks]
            · simp [hks]
where
  absurd_none {a b r : Table} {k : String} {v e : Value} (hp : b.Proper) (h : Table.merge a b = some r) (hb : b.get k = some v)
      (ha : a.get k = some e) (hv : Value.mergeOver e v = none) : (none : Option Value).isSome := by
    exfalso
    revert h
    suffices Table.merge a b = none by rw [this]; intro h; cases h
    exact merge_fails hp hb ha hv
  merge_fails {b : Table} : ∀ {a : Table} {k : String} {v e : Value}, b.Proper → b.get k = some v → a.get k = some e →
      Value.mergeOver e v = none → Table.merge a b = none := by
    match b with
    | .nil => intro a k v e _ hb; cases hb
    | .cons key value rest =>
      intro a k v e hp hb ha hv
      unfold Table.Proper at hp
      obtain ⟨h1, h2, h3⟩ := hp
      unfold Table.get at hb
      unfold Table.merge
      by_cases hk : key = k
      · rw [if_pos hk] at hb
        cases hb
        rw [hk, ha]
        simp only [hv]
      · rw [if_neg hk] at hb
        cases hg : a.get key with
        | none =>
          simp only
          exact merge_fails h3 hb (by rw [get_insert _ _ _ hg, if_neg hk]; exact ha) hv
        | some e' =>
          simp only
          cases Value.mergeOver e' value with
          | none => rfl
          | some w =>
            simp only
            exact merge_fails h3 hb (by rw [get_set, if_neg hk]; exact ha) hv

theorem conflict_of_none {a b : Table} (hp : b.Proper) (h : Table.merge a b = none) : Conflict a b := by
  have hm := merge_get (a := a) hp
  rw [h] at hm
  obtain ⟨k, v, e, hb, ha, hv⟩ := hm
  have hs := get_size hb
  match v, e, hv with
  | .leaf kd y, .leaf kd' x, hv =>
    simp only [Value.mergeOver] at hv
    split at hv
    · cases hv
    · rename_i hne
      refine ⟨[k], some kd', some kd, ?_, ?_, ?_⟩
      · rw [type_info, info_cons, ha]; simp
      · rw [type_info, info_cons, hb]; simp
      · simpa using hne
  | .leaf kd y, .table t0, _ =>
    refine ⟨[k], none, some kd, ?_, ?_, by simp⟩
    · rw [type_info, info_cons, ha]; simp [info_nil]
    · rw [type_info, info_cons, hb]; simp
  | .table t1, .leaf kd x, _ =>
    refine ⟨[k], some kd, none, ?_, ?_, by simp⟩
    · rw [type_info, info_cons, ha]; simp
    · rw [type_info, info_cons, hb]; simp [info_nil]
  | .table t1, .table t0, hv =>
    simp only [Value.mergeOver, Option.map_eq_none_iff] at hv
    have hs' : sizeOf t1 < sizeOf b := by simp only [Value.table.sizeOf_spec] at hs; omega
    obtain ⟨p, x, y, h1, h2, h3⟩ := conflict_of_none (get_proper hp hb) hv
    refine ⟨k :: p, x, y, ?_, ?_, h3⟩
    · rw [type_info, info_cons, ha]; rw [type_info] at h1; exact h1
    · rw [type_info, info_cons, hb]; rw [type_info] at h2; exact h2
termination_by sizeOf b

end Verif.Gen.Config
