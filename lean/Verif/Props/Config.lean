import Verif.Gen.ConfigLemmas
/-
C78: configuration is taken from the layers in the documented order.
-/
namespace Verif.Props.Config
open Verif.Gen.Config

/-- Merging fails exactly if the two have values of different types somewhere. -/
theorem C78_merge_fails (a b : Table) (hp : b.Proper) : Table.merge a b = none ↔ Conflict a b := by
  constructor
  · exact conflict_of_none hp
  · rintro ⟨p, x, y, h1, h2, h3⟩
    cases h : Table.merge a b with
    | none => rfl
    | some r => exact absurd ((merge_info p hp h).2 x y h1 h2) h3

/-- After merging, every setting is the later one if there is one, else the earlier one; nothing is lost. -/
theorem C78_merge (a b r : Table) (hp : b.Proper) (h : Table.merge a b = some r) (p : List String) :
    r.setting p = (b.setting p).or (a.setting p) ∧ r.type p = (b.type p).or (a.type p) := by
  obtain ⟨h1, h2⟩ := merge_info p hp h
  have h3 : r.type p = (b.type p).or (a.type p) := by
    rw [type_info, type_info, type_info, h1]
    cases b.info p <;> simp
  refine ⟨?_, h3⟩
  rw [setting_info, setting_info, setting_info, h1]
  rw [type_info, type_info] at h2
  cases hb : b.info p with
  | none => simp
  | some x =>
    cases x with
    | some y => simp
    | none =>
      rw [hb] at h2
      cases ha : a.info p with
      | none => simp
      | some z =>
        rw [ha] at h2
        have := h2 _ _ rfl rfl
        cases z with
        | none => simp
        | some w => simp at this

/-- The `uniffi.toml` of a crate. -/
def crateFile (fs : String → File) (layers : List Layer) (crate : String) : File :=
  match crateRoot layers crate with
  | some root => fs (root ++ "/uniffi.toml")
  | none => .absent

/-- The settings in it. -/
def fileTable : File → Table
  | .toml t => t
  | _ => .nil

theorem configPath_root (layers : List Layer) (crate : String) :
    configPath layers crate = (crateRoot layers crate).map (· ++ "/uniffi.toml") := by
  unfold configPath crateRoot
  induction layers with
  | nil => rfl
  | cons l ls ih =>
    simp only [List.findSome?_cons]
    cases l crate with
    | none => simpa using ih
    | some p => rfl

theorem merge_nil (a : Table) : Table.merge a .nil = some a := by simp [Table.merge]

theorem nil_proper : Table.nil.Proper := by simp [Table.Proper]

/-- The configuration as two merges. -/
theorem config_eq (g : Global) (fs : String → File) (layers : List Layer) (crate : String) :
    g.config fs layers crate =
      if crateFile fs layers crate matches .bad then none
      else (Table.merge g.defaults (fileTable (crateFile fs layers crate))).bind fun c =>
        Table.merge c ((g.overrides crate).getD .nil) := by
  unfold Global.config crateFile
  rw [configPath_root]
  cases crateRoot layers crate with
  | none =>
    simp only [Option.map_none, fileTable, merge_nil]
    cases g.overrides crate <;> simp [merge_nil]
  | some root =>
    simp only [Option.map_some]
    cases fs (root ++ "/uniffi.toml") with
    | absent =>
      simp only [fileTable, merge_nil]
      cases g.overrides crate <;> simp [merge_nil]
    | bad => simp
    | toml t =>
      simp only [fileTable]
      cases Table.merge g.defaults t with
      | none => simp
      | some c => cases g.overrides crate <;> simp [merge_nil]

/-- Every setting of a crate is that of `[crates.<name>]` if there is one, else that of its `uniffi.toml`, else that of
`[defaults]`. -/
theorem C78_priority (g : Global) (fs : String → File) (layers : List Layer) (crate : String) (c : Table)
    (hf : (fileTable (crateFile fs layers crate)).Proper) (ho : ((g.overrides crate).getD .nil).Proper)
    (h : g.config fs layers crate = some c) (p : List String) :
    c.setting p = (((g.overrides crate).getD .nil).setting p).or
      (((fileTable (crateFile fs layers crate)).setting p).or (g.defaults.setting p)) := by
  rw [config_eq] at h
  split at h
  · cases h
  · cases h1 : Table.merge g.defaults (fileTable (crateFile fs layers crate)) with
    | none => rw [h1] at h; cases h
    | some c1 =>
      rw [h1] at h
      simp only [Option.bind_some] at h
      rw [(C78_merge _ _ _ ho h p).1, (C78_merge _ _ _ hf h1 p).1]

theorem fails_two (d f o : Table) (hf : f.Proper) (ho : o.Proper) :
    ((Table.merge d f).bind fun c => Table.merge c o) = none ↔ Conflict d f ∨ Conflict d o ∨ Conflict f o := by
  cases h1 : Table.merge d f with
  | none =>
    simp only [Option.bind_none, true_iff]
    exact .inl ((C78_merge_fails d f hf).1 h1)
  | some c =>
    simp only [Option.bind_some]
    have hn : ¬ Conflict d f := fun hc => by rw [(C78_merge_fails d f hf).2 hc] at h1; cases h1
    have ht := fun p => (C78_merge d f c hf h1 p).2
    rw [C78_merge_fails c o ho]
    constructor
    · rintro ⟨p, x, y, e1, e2, e3⟩
      rw [ht p] at e1
      cases hfp : f.type p with
      | none => rw [hfp] at e1; exact .inr (.inl ⟨p, x, y, by simpa using e1, e2, e3⟩)
      | some z => rw [hfp] at e1; simp at e1; subst e1; exact .inr (.inr ⟨p, z, y, hfp, e2, e3⟩)
    · rintro (hc | ⟨p, x, y, e1, e2, e3⟩ | ⟨p, x, y, e1, e2, e3⟩)
      · exact absurd hc hn
      · refine ⟨p, x, y, ?_, e2, e3⟩
        rw [ht p]
        cases hfp : f.type p with
        | none => simpa using e1
        | some z =>
          have : x = z := Classical.byContradiction fun hne => hn ⟨p, x, z, e1, hfp, hne⟩
          simp [this]
      · exact ⟨p, x, y, by rw [ht p, e1]; rfl, e2, e3⟩

/-- It fails exactly if the file cannot be read or two of the three have values of different types somewhere. -/
theorem C78_fails (g : Global) (fs : String → File) (layers : List Layer) (crate : String)
    (hf : (fileTable (crateFile fs layers crate)).Proper) (ho : ((g.overrides crate).getD .nil).Proper) :
    g.config fs layers crate = none ↔ crateFile fs layers crate = .bad ∨
      Conflict g.defaults (fileTable (crateFile fs layers crate)) ∨ Conflict g.defaults ((g.overrides crate).getD .nil) ∨
      Conflict (fileTable (crateFile fs layers crate)) ((g.overrides crate).getD .nil) := by
  rw [config_eq]
  cases hb : crateFile fs layers crate with
  | bad => simp
  | absent =>
    rw [hb] at hf
    simp only [Bool.false_eq_true, if_false, reduceCtorEq, false_or]
    exact fails_two _ _ _ hf ho
  | toml t =>
    rw [hb] at hf
    simp only [Bool.false_eq_true, if_false, reduceCtorEq, false_or]
    exact fails_two _ _ _ hf ho
/-! ### The file -/

/-- The file is one of the documented form (it has one of the sections, or is empty). -/
def HasSections (raw : Table) : Prop :=
  raw = .nil ∨ (raw.get "crate-roots").isSome ∨ (raw.get "defaults").isSome ∨ (raw.get "crates").isSome

theorem at_cons (t : Table) (k : String) (ks : List String) : t.at (k :: ks) = match t.get k with
    | some (.table t') => t'.at ks
    | some (.leaf kd v) => if ks = [] then some (.leaf kd v) else none
    | none => none := by
  rfl

theorem nil_setting (p : List String) : Table.nil.setting p = none := by
  unfold Table.setting
  cases p with
  | nil => simp [Table.at]
  | cons k ks => rw [at_cons]; simp [Table.get]

theorem section_setting {raw t : Table} {name : String} (h : section_ raw name = some t) (p : List String) :
    t.setting p = raw.setting (name :: p) := by
  unfold section_ at h
  conv => rhs; unfold Table.setting
  rw [at_cons]
  cases hg : raw.get name with
  | none => rw [hg] at h; cases h; rw [nil_setting]
  | some v =>
    rw [hg] at h
    cases v with
    | table t' => cases h; rfl
    | leaf k v => cases h

theorem section_proper {raw t : Table} {name : String} (hp : raw.Proper) (h : section_ raw name = some t) : t.Proper := by
  unfold section_ at h
  cases hg : raw.get name with
  | none => rw [hg] at h; cases h; exact nil_proper
  | some v =>
    rw [hg] at h
    have := get_proper hp hg
    cases v with
    | table t' => cases h; simpa [Value.Proper] using this
    | leaf k v => cases h

theorem tablesOf_get {t : Table} : ∀ {l : List (String × Table)}, tablesOf t = some l → ∀ k, (lookup l k).map Value.table = t.get k := by
  match t with
  | .nil => intro l h k; simp only [tablesOf] at h; cases h; simp [lookup, Table.get]
  | .cons k' (.leaf _ _) r => intro l h; simp [tablesOf] at h
  | .cons k' (.table t') r =>
    intro l h k
    simp only [tablesOf, Option.map_eq_some_iff] at h
    obtain ⟨l', h1, h2⟩ := h
    subst h2
    have ih := tablesOf_get h1 k
    rw [get_cons, ← ih]
    unfold lookup
    by_cases hk : k' = k <;> simp [hk]

theorem stringsOf_get {t : Table} : ∀ {l : List (String × String)}, stringsOf t = some l →
    ∀ k, (lookup l k).map (Value.leaf .string) = t.get k := by
  match t with
  | .nil => intro l h k; simp only [stringsOf] at h; cases h; simp [lookup, Table.get]
  | .cons k' (.table _) r => intro l h; simp [stringsOf] at h
  | .cons k' (.leaf kd s) r =>
    intro l h k
    cases kd <;> simp only [stringsOf, Option.map_eq_some_iff, reduceCtorEq] at h
    obtain ⟨l', h1, h2⟩ := h
    subst h2
    have ih := stringsOf_get h1 k
    rw [get_cons, ← ih]
    unfold lookup
    by_cases hk : k' = k <;> simp [hk]

/-- A global configuration file that is accepted is read as documented: `[defaults]`, `[crates.<name>]` and `[crate-roots]`,
whose paths are relative to the directory of the file. -/
theorem C78_file (join : String → String → String) (dir : String) (raw : Table) (hp : raw.Proper) (hs : HasSections raw)
    (g : Global) (roots : Option Layer) (h : Global.fromFile join dir raw = some (g, roots)) :
    (∀ p, g.defaults.setting p = raw.setting ("defaults" :: p)) ∧
    (∀ c p, ((g.overrides c).getD .nil).setting p = raw.setting ("crates" :: c :: p) ∧ ((g.overrides c).getD .nil).Proper) ∧
    (∀ c, (roots.bind fun l => l c) =
      (raw.setting ["crate-roots", c]).bind fun x => if x.1 = .string then some (join dir x.2) else none) := by
  unfold Global.fromFile at h
  have hc : ((!((raw.get "crate-roots").isSome || (raw.get "defaults").isSome || (raw.get "crates").isSome)) && !raw.isEmpty) = false := by
    rcases hs with hs | hs | hs | hs
    · subst hs; rfl
    · simp [hs]
    · simp [hs]
    · simp [hs]
  simp only at h
  rw [hc] at h
  simp only [Bool.false_eq_true, if_false] at h
  split at h
  · rename_i rs ds cs e1 e2 e3
    rw [Option.bind_eq_some_iff] at e1 e3
    obtain ⟨rt, e4, e5⟩ := e1
    obtain ⟨ct, e6, e7⟩ := e3
    cases h
    refine ⟨section_setting e2, fun c p => ?_, fun c => ?_⟩
    · have hg := tablesOf_get e7 c
      have hpr := section_proper hp e6
      rw [← section_setting e6]
      dsimp only
      cases hl : lookup cs c with
      | none =>
        rw [hl] at hg
        simp only [Option.getD_none, nil_setting]
        refine ⟨?_, nil_proper⟩
        unfold Table.setting
        rw [at_cons, ← hg]
        rfl
      | some t =>
        rw [hl] at hg
        simp only [Option.getD_some]
        refine ⟨?_, ?_⟩
        · conv => rhs; unfold Table.setting
          rw [at_cons, ← hg]
          rfl
        · simpa [Value.Proper] using get_proper hpr hg.symm
    · have hg := stringsOf_get e5 c
      rw [← section_setting e4]
      conv => rhs; unfold Table.setting
      rw [at_cons, ← hg]
      have : (match rs with | [] => none | roots => some fun c => (lookup roots c).map (join dir) : Option Layer).bind (fun l => l c) =
          (lookup rs c).map (join dir) := by
        cases rs <;> rfl
      refine Eq.trans ?_ (this.trans ?_)
      · cases rs <;> rfl
      · cases lookup rs c <;> simp
  · cases h

/-- A file of the old form is ignored. -/
theorem C78_old_form (join : String → String → String) (dir : String) (raw : Table) (hs : ¬ HasSections raw) :
    Global.fromFile join dir raw = some ({}, none) := by
  unfold Global.fromFile
  unfold HasSections at hs
  simp only [not_or] at hs
  obtain ⟨h1, h2, h3, h4⟩ := hs
  have hc : ((!((raw.get "crate-roots").isSome || (raw.get "defaults").isSome || (raw.get "crates").isSome)) && !raw.isEmpty) = true := by
    simp only [Bool.not_eq_true] at h2 h3 h4
    rw [h2, h3, h4]
    cases raw with
    | nil => exact absurd rfl h1
    | cons => rfl
  simp only
  rw [if_pos hc]

/-- The location of a crate: that of the caller, else that of `[crate-roots]`, else that of Cargo. -/
theorem C78_crate_roots (given : List Layer) (roots : Option Layer) (cargo : Layer) (c : String) :
    crateRoot (layersOf given roots cargo) c = (crateRoot given c).or ((roots.bind fun l => l c).or (cargo c)) := by
  unfold crateRoot layersOf
  rw [List.findSome?_append, List.findSome?_append]
  cases List.findSome? (fun l => l c) given with
  | some x => rfl
  | none =>
    cases roots with
    | none => cases hc : cargo c <;> simp [hc]
    | some l => cases hl : l c <;> cases hc : cargo c <;> simp [hl, hc]

/-! ### Examples -/

/-- A table with one setting. -/
def one (k : String) (v : Value) : Table := .cons k v .nil
def str (s : String) : Value := .leaf .string s

/-- The file of the manual. -/
def exGlobal : Table :=
  .cons "defaults" (.table (one "bindings" (.table (one "swift" (.table (.cons "ffi_module_name" (str "MyAppFFI")
    (.cons "link" (.leaf .boolean "true") .nil)))))))
  (.cons "crates" (.table (one "auth" (.table (one "bindings" (.table (one "swift" (.table (one "ffi_module_filename" (str "auth_ffi")))))))))
  (.cons "crate-roots" (.table (one "auth" (str "components/auth"))) .nil))

/-- The configuration of the crate. -/
def exCrate : Table :=
  one "bindings" (.table (one "swift" (.table (.cons "ffi_module_filename" (str "mine") (.cons "link" (.leaf .boolean "false") .nil)))))

def exFs (p : String) : File := if p = "/proj/components/auth/uniffi.toml" then .toml exCrate else .absent

def exJoin (a b : String) : String := a ++ "/" ++ b

/-- The settings of `auth`, and of a crate without a file. -/
theorem exConfig : ∃ g roots, Global.fromFile exJoin "/proj" exGlobal = some (g, roots) ∧
    ((g.config exFs (layersOf [] roots fun c => some ("/cargo/" ++ c)) "auth").map fun c =>
      [c.setting ["bindings", "swift", "ffi_module_name"], c.setting ["bindings", "swift", "ffi_module_filename"],
       c.setting ["bindings", "swift", "link"]]) =
      some [some (.string, "MyAppFFI"), some (.string, "auth_ffi"), some (.boolean, "false")] ∧
    ((g.config exFs (layersOf [] roots fun c => some ("/cargo/" ++ c)) "tabs").map fun c =>
      c.setting ["bindings", "swift", "link"]) = some (some (.boolean, "true")) :=
  ⟨_, _, rfl, by decide, by decide⟩

example : exGlobal.Proper ∧ HasSections exGlobal ∧ exCrate.Proper := by
  refine ⟨?_, .inr (.inl (by decide)), ?_⟩ <;> simp [exGlobal, exCrate, one, str, Table.Proper, Value.Proper, Table.keys]

example : ¬ HasSections exCrate := by
  unfold HasSections
  simp [exCrate, one, str, Table.get]

/-- A setting of another type is an error. -/
example : Conflict (one "a" (one "b" (str "x") |> .table)) (one "a" (one "b" (.leaf .integer "1") |> .table)) :=
  ⟨["a", "b"], some .string, some .integer, by decide, by decide, by decide⟩

/-- The generator for Kotlin with JNI asks Cargo first: `[crate-roots]` does not override the location of a crate. -/
theorem C78_jni_crate_roots_broken : ∃ (roots cargo : Layer) (c : String), roots c = some "/override" ∧
    crateRoot (layersOf [] (some roots) cargo) c = some "/override" ∧ crateRoot (layersOfJni (some roots) cargo) c = some "/cargo" :=
  ⟨fun _ => some "/override", fun _ => some "/cargo", "c", rfl, rfl, rfl⟩

/-- The manual says that scalar values are replaced; one of another type makes generation fail. -/
theorem C78_other_type_broken : ∃ (g : Global) (fs : String → File) (layers : List Layer),
    g.defaults.setting ["threads"] = some (.integer, "2") ∧
    (fileTable (crateFile fs layers "c")).setting ["threads"] = some (.string, "auto") ∧ g.config fs layers "c" = none :=
  ⟨{ defaults := one "threads" (.leaf .integer "2") }, fun _ => .toml (one "threads" (str "auto")), [fun _ => some "/c"],
    by decide, by decide, by decide⟩

end Verif.Props.Config
