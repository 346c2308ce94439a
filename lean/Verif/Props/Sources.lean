import Verif.Gen.SourcesSpec
/-
C79: bindings made from sources cover the crates a crate needs, each once.
-/
namespace Verif.Props.Sources
open Verif.Gen.Sources

section
variable (pkgs : List Package) (o : Options) (source : String)

/-- What a name adds to each of the variables. -/
def featuresOf (c : String) : List (String × String) :=
  match getPackage pkgs c with
  | none => []
  | some p => p.deps.flatMap (fun d => d.features.map fun f => (d.name, f)) ++
      (if c = source then (selected o p).map fun f => (c, f) else [])

def defaultsOf (c : String) : List (String × String) :=
  match getPackage pkgs c with
  | none => []
  | some p => ((defaultFeatures p).getD []).map fun f => (c, f)

def enableOf (c : String) : List String :=
  match getPackage pkgs c with
  | none => []
  | some p => (if c = source && !o.noDefault then [c] else []) ++ (p.deps.filter (·.usesDefault)).map (·.name)

def foundOf (c : String) : List (String × String) :=
  match getPackage pkgs c with
  | none => []
  | some p => if shouldParse p then p.src.toList.map fun src => (p.name, src) else []

def depsOf (c : String) : List String :=
  match getPackage pkgs c with
  | none => []
  | some p => p.deps.map (·.name)

/-- The variables are functions of what was seen. -/
structure Inv (s : State) : Prop where
  features : s.features = s.seen.flatMap (featuresOf pkgs o source)
  defaults : s.defaults = s.seen.flatMap (defaultsOf pkgs)
  enable : s.enable = s.seen.flatMap (enableOf pkgs o source)
  found : s.found = s.seen.flatMap (foundOf pkgs)
  nodup : s.seen.Nodup
  needs : ∀ c, c ∈ s.seen ∨ c ∈ s.todo → Needs pkgs source c
  closed : ∀ c ∈ s.seen, ∀ d ∈ depsOf pkgs c, d ∈ s.seen ∨ d ∈ s.todo
  start : source ∈ s.seen ∨ source ∈ s.todo

theorem visit_fields (s : State) (c : String) (rest : List String) :
    let t := visit pkgs o source s c rest
    t.seen = s.seen ++ [c] ∧ t.todo = (depsOf pkgs c).reverse ++ rest ∧ t.features = s.features ++ featuresOf pkgs o source c ∧
    t.defaults = s.defaults ++ defaultsOf pkgs c ∧ t.enable = s.enable ++ enableOf pkgs o source c ∧
    t.found = s.found ++ foundOf pkgs c := by
  unfold visit depsOf featuresOf defaultsOf enableOf foundOf
  cases getPackage pkgs c with
  | none => simp
  | some p => simp only [List.append_assoc]; simp

theorem needs_deps {c d : String} (h : Needs pkgs source c) (hd : d ∈ depsOf pkgs c) : Needs pkgs source d := by
  unfold depsOf at hd
  cases hg : getPackage pkgs c with
  | none => rw [hg] at hd; cases hd
  | some p =>
    rw [hg] at hd
    obtain ⟨x, h1, h2⟩ := List.mem_map.1 hd
    rw [← h2]
    exact .dep h hg h1

theorem inv_visit {s : State} {c : String} {rest : List String} (i : Inv pkgs o source s) (ht : s.todo = c :: rest)
    (hc : c ∉ s.seen) : Inv pkgs o source (visit pkgs o source s c rest) := by
  obtain ⟨e1, e2, e3, e4, e5, e6⟩ := visit_fields pkgs o source s c rest
  have hn : Needs pkgs source c := i.needs c (.inr (by rw [ht]; exact List.mem_cons_self ..))
  refine ⟨?_, ?_, ?_, ?_, ?_, ?_, ?_, ?_⟩
  · rw [e3, e1, List.flatMap_append, i.features]; simp
  · rw [e4, e1, List.flatMap_append, i.defaults]; simp
  · rw [e5, e1, List.flatMap_append, i.enable]; simp
  · rw [e6, e1, List.flatMap_append, i.found]; simp
  · rw [e1, List.nodup_append]
    refine ⟨i.nodup, by simp, ?_⟩
    intro a ha b hb
    rw [List.mem_singleton] at hb
    subst hb
    intro e; subst e; exact hc ha
  · intro x hx
    rw [e1, e2] at hx
    simp only [List.mem_append, List.mem_singleton, List.mem_reverse] at hx
    rcases hx with (hx | hx) | hx | hx
    · exact i.needs x (.inl hx)
    · rw [hx]; exact hn
    · exact needs_deps pkgs source hn hx
    · exact i.needs x (.inr (by rw [ht]; exact List.mem_cons_of_mem _ hx))
  · intro x hx d hd
    rw [e1] at hx
    rw [e1, e2]
    simp only [List.mem_append, List.mem_singleton, List.mem_reverse] at hx ⊢
    rcases hx with hx | hx
    · rcases i.closed x hx d hd with h | h
      · exact .inl (.inl h)
      · rw [ht] at h
        rcases List.mem_cons.1 h with h | h
        · exact .inl (.inr h)
        · exact .inr (.inr h)
    · subst hx; exact .inr (.inl hd)
  · rw [e1, e2]
    simp only [List.mem_append, List.mem_singleton, List.mem_reverse]
    rcases i.start with h | h
    · exact .inl (.inl h)
    · rw [ht] at h
      rcases List.mem_cons.1 h with h | h
      · exact .inl (.inr h)
      · exact .inr (.inr h)

theorem inv_skip {s : State} {c : String} {rest : List String} (i : Inv pkgs o source s) (ht : s.todo = c :: rest)
    (hc : c ∈ s.seen) : Inv pkgs o source { s with todo := rest } := by
  refine ⟨i.features, i.defaults, i.enable, i.found, i.nodup, ?_, ?_, ?_⟩
  · intro x hx
    rcases hx with hx | hx
    · exact i.needs x (.inl hx)
    · exact i.needs x (.inr (by rw [ht]; exact List.mem_cons_of_mem _ hx))
  · intro x hx d hd
    rcases i.closed x hx d hd with h | h
    · exact .inl h
    · rw [ht] at h
      rcases List.mem_cons.1 h with h | h
      · exact .inl (h ▸ hc)
      · exact .inr h
  · rcases i.start with h | h
    · exact .inl h
    · rw [ht] at h
      rcases List.mem_cons.1 h with h | h
      · exact .inl (h ▸ hc)
      · exact .inr h

theorem loop_inv : ∀ (n : Nat) (s t : State), Inv pkgs o source s → loop pkgs o source n s = some t →
    Inv pkgs o source t ∧ t.todo = []
  | 0, _, _, _, h => by cases h
  | n + 1, s, t, i, h => by
    unfold loop at h
    split at h
    · cases h; exact ⟨i, by assumption⟩
    · rename_i c rest ht
      split at h
      · rename_i hc; exact loop_inv n _ t (inv_skip pkgs o source i ht hc) h
      · rename_i hc; exact loop_inv n _ t (inv_visit pkgs o source i ht hc) h

theorem inv_init : Inv pkgs o source { todo := [source] } := by
  refine ⟨rfl, rfl, rfl, rfl, List.nodup_nil, ?_, ?_, .inr (List.mem_singleton.2 rfl)⟩
  · intro c h
    rcases h with h | h
    · cases h
    · rw [List.mem_singleton.1 h]; exact .self
  · intro c h; cases h

/-- At the end, what was seen is what is needed. -/
theorem seen_needs {t : State} (i : Inv pkgs o source t) (ht : t.todo = []) (c : String) : c ∈ t.seen ↔ Needs pkgs source c := by
  constructor
  · intro h; exact i.needs c (.inl h)
  · intro h
    induction h with
    | self => exact i.start.elim id fun h => by rw [ht] at h; cases h
    | @dep c p d _ hg hd ih =>
      have hm : d.name ∈ depsOf pkgs c := by
        unfold depsOf; rw [hg]; exact List.mem_map.2 ⟨d, hd, rfl⟩
      exact (i.closed c ih d.name hm).elim id fun h => by rw [ht] at h; cases h

/-! Termination -/

/-- All names. -/
def allNames : List String := source :: pkgs.flatMap fun p => p.deps.map (·.name)

def width : Nat := (pkgs.map fun p => p.deps.length).sum

theorem getPackage_mem {c : String} {p : Package} (h : getPackage pkgs c = some p) : p ∈ pkgs :=
  List.mem_reverse.1 (List.mem_of_find?_eq_some h)

theorem deps_width (c : String) : (depsOf pkgs c).length ≤ width pkgs := by
  unfold depsOf width
  cases hg : getPackage pkgs c with
  | none => simp
  | some p =>
    simp only [List.length_map]
    have hm := getPackage_mem pkgs hg
    clear hg
    induction pkgs with
    | nil => cases hm
    | cons a l ih =>
      simp only [List.map_cons, List.sum_cons]
      rcases List.mem_cons.1 hm with h | h
      · subst h; omega
      · have := ih h; omega

theorem deps_allNames {c d : String} (h : d ∈ depsOf pkgs c) : d ∈ allNames pkgs source := by
  unfold depsOf at h
  cases hg : getPackage pkgs c with
  | none => rw [hg] at h; cases h
  | some p =>
    rw [hg] at h
    exact List.mem_cons_of_mem _ (List.mem_flatMap.2 ⟨p, getPackage_mem pkgs hg, h⟩)

def unseen (s : State) : Nat := ((allNames pkgs source).filter fun c => c ∉ s.seen).length

theorem filter_lt {l : List String} {a : List String} {c : String} (hc : c ∈ l) (hn : c ∉ a) :
    (l.filter fun x => x ∉ a ++ [c]).length < (l.filter fun x => x ∉ a).length := by
  induction l with
  | nil => cases hc
  | cons x l ih =>
    have hle : (l.filter fun x => x ∉ a ++ [c]).length ≤ (l.filter fun x => x ∉ a).length := by
      clear ih hc
      induction l with
      | nil => simp
      | cons y l ih =>
        simp only [List.filter_cons]
        by_cases hy : y ∈ a
        · have : y ∈ a ++ [c] := List.mem_append_left _ hy
          simp only [hy, this, not_true_eq_false, decide_false, Bool.false_eq_true, if_false]; exact ih
        · by_cases hyc : y ∈ a ++ [c]
          · simp only [hy, hyc, not_true_eq_false, not_false_eq_true, decide_false, decide_true, Bool.false_eq_true, if_false,
              if_true, List.length_cons]; omega
          · simp only [hy, hyc, not_false_eq_true, decide_true, if_true, List.length_cons]; omega
    simp only [List.filter_cons]
    by_cases hx : x = c
    · subst hx
      have h1 : x ∈ a ++ [x] := List.mem_append_right _ (List.mem_singleton.2 rfl)
      simp only [hn, h1, not_true_eq_false, not_false_eq_true, decide_false, decide_true, Bool.false_eq_true, if_false, if_true,
        List.length_cons]
      omega
    · have hc' : c ∈ l := (List.mem_cons.1 hc).resolve_left fun e => hx e.symm
      have := ih hc'
      by_cases hxa : x ∈ a
      · have h1 : x ∈ a ++ [c] := List.mem_append_left _ hxa
        simp only [hxa, h1, not_true_eq_false, decide_false, Bool.false_eq_true, if_false]; exact this
      · have h1 : x ∉ a ++ [c] := by simp [hxa, hx]
        simp only [hxa, h1, not_false_eq_true, decide_true, if_true, List.length_cons]; omega

theorem loop_ends : ∀ (n : Nat) (s : State), (∀ c ∈ s.todo, c ∈ allNames pkgs source) →
    unseen pkgs source s * (width pkgs + 1) + s.todo.length < n → ∃ t, loop pkgs o source n s = some t
  | 0, _, _, h => by omega
  | n + 1, s, hu, h => by
    unfold loop
    cases ht : s.todo with
    | nil => exact ⟨s, rfl⟩
    | cons c rest =>
      rw [ht] at h hu
      simp only [List.length_cons] at h
      simp only
      split
      · refine loop_ends n _ (fun x hx => hu x (List.mem_cons_of_mem _ hx)) ?_
        show unseen pkgs source s * (width pkgs + 1) + rest.length < n
        omega
      · rename_i hc
        obtain ⟨e1, e2, _⟩ := visit_fields pkgs o source s c rest
        refine loop_ends n _ ?_ ?_
        · intro x hx
          rw [e2] at hx
          rcases List.mem_append.1 hx with hx | hx
          · exact deps_allNames pkgs source (List.mem_reverse.1 hx)
          · exact hu x (List.mem_cons_of_mem _ hx)
        · have hlt : unseen pkgs source (visit pkgs o source s c rest) < unseen pkgs source s := by
            unfold unseen; rw [e1]; exact filter_lt (hu c (List.mem_cons_self ..)) hc
          have hw := deps_width pkgs c
          rw [e2]
          simp only [List.length_append, List.length_reverse]
          have : (unseen pkgs source (visit pkgs o source s c rest) + 1) * (width pkgs + 1) ≤ unseen pkgs source s * (width pkgs + 1) :=
            Nat.mul_le_mul_right _ hlt
          rw [Nat.add_mul] at this
          omega

end

/-- The search ends, also for crates that need each other. -/
theorem C79_ends (pkgs : List Package) (o : Options) (source : String) :
    ∃ bound, ∀ n, bound ≤ n → ∃ l, sourceCrates pkgs o source n = some l := by
  refine ⟨unseen pkgs source { todo := [source] } * (width pkgs + 1) + 2, fun n hn => ?_⟩
  obtain ⟨t, ht⟩ := loop_ends pkgs o source n { todo := [source] } (fun c hc => by
    rw [List.mem_singleton.1 hc]; exact List.mem_cons_self ..) (by
      simp only [List.length_singleton]; omega)
  exact ⟨finish t, by unfold sourceCrates; rw [ht]; rfl⟩

theorem mem_found {pkgs : List Package} {o : Options} {source : String} {t : State} (i : Inv pkgs o source t) (ht : t.todo = [])
    (x : String × String) : x ∈ t.found ↔ ∃ p, NeedsPackage pkgs source p ∧ shouldParse p = true ∧ p.name = x.1 ∧ p.src = some x.2 := by
  rw [i.found, List.mem_flatMap]
  constructor
  · rintro ⟨c, h1, h2⟩
    unfold foundOf at h2
    cases hg : getPackage pkgs c with
    | none => rw [hg] at h2; cases h2
    | some p =>
      rw [hg] at h2
      simp only at h2
      split at h2
      · rename_i hs
        obtain ⟨y, h3, h4⟩ := List.mem_map.1 h2
        subst h4
        exact ⟨p, ⟨c, (seen_needs pkgs o source i ht c).1 h1, hg⟩, hs, rfl, by simpa using h3⟩
      · cases h2
  · rintro ⟨p, ⟨c, h1, hg⟩, h2, h3, h4⟩
    refine ⟨c, (seen_needs pkgs o source i ht c).2 h1, ?_⟩
    unfold foundOf
    rw [hg]
    simp only [h2, if_true]
    rw [h4]
    simp [h3]

/-- Exactly the packages are parsed that are needed, use UniFFI, are not skipped and have a library. -/
theorem C79_found (pkgs : List Package) (o : Options) (source : String) (n : Nat) (l : List Source)
    (h : sourceCrates pkgs o source n = some l) (name src : String) :
    (∃ x ∈ l, x.name = name ∧ x.src = src) ↔
      ∃ p, NeedsPackage pkgs source p ∧ (∃ d ∈ p.deps, d.name = "uniffi") ∧ p.skip = false ∧ p.name = name ∧ p.src = some src := by
  unfold sourceCrates at h
  rw [Option.map_eq_some_iff] at h
  obtain ⟨t, h1, h2⟩ := h
  subst h2
  obtain ⟨i, ht⟩ := loop_inv pkgs o source n _ t (inv_init pkgs o source) h1
  have := mem_found i ht (name, src)
  have e : (∃ x ∈ finish t, x.name = name ∧ x.src = src) ↔ (name, src) ∈ t.found := by
    unfold finish
    constructor
    · rintro ⟨x, hx, h1, h2⟩
      obtain ⟨y, hy, e⟩ := List.mem_map.1 hx
      subst e h1 h2
      exact hy
    · intro hm
      exact ⟨_, List.mem_map.2 ⟨_, hm, rfl⟩, rfl, rfl⟩
  rw [e, this]
  constructor
  · rintro ⟨p, a, b, c, d⟩
    simp only [shouldParse, Bool.and_eq_true, List.any_eq_true, decide_eq_true_eq, Bool.not_eq_true'] at b
    exact ⟨p, a, b.1, b.2, c, d⟩
  · rintro ⟨p, a, b, c, d, e⟩
    refine ⟨p, a, ?_, d, e⟩
    simp only [shouldParse, Bool.and_eq_true, List.any_eq_true, decide_eq_true_eq, Bool.not_eq_true']
    exact ⟨b, c⟩

/-- Each once, if names are written as the packages write them. -/
theorem C79_once_partial (pkgs : List Package) (o : Options) (source : String) (hs : Spelled pkgs source) (n : Nat)
    (l : List Source) (h : sourceCrates pkgs o source n = some l) : (l.map (·.name)).Nodup := by
  unfold sourceCrates at h
  rw [Option.map_eq_some_iff] at h
  obtain ⟨t, h1, h2⟩ := h
  subst h2
  obtain ⟨i, ht⟩ := loop_inv pkgs o source n _ t (inv_init pkgs o source) h1
  have e : (finish t).map (·.name) = t.found.map (·.1) := by
    unfold finish; rw [List.map_map]; rfl
  rw [e, i.found]
  have hsub : ∀ l : List String, (∀ c ∈ l, Needs pkgs source c) → ((l.flatMap (foundOf pkgs)).map (·.1)).Sublist l := by
    intro l
    induction l with
    | nil => intro _; simp
    | cons c l ih =>
      intro hl
      have ih := ih fun x hx => hl x (List.mem_cons_of_mem _ hx)
      rw [List.flatMap_cons, List.map_append]
      unfold foundOf
      cases hg : getPackage pkgs c with
      | none => simp only [List.map_nil, List.nil_append]; exact ih.cons c
      | some p =>
        simp only
        split
        · cases p.src with
          | none => simp only [Option.toList_none, List.map_nil, List.nil_append]; exact ih.cons c
          | some s =>
            simp only [Option.toList_some, List.map_cons, List.map_nil, List.singleton_append]
            rw [hs c p (hl c (List.mem_cons_self ..)) hg]
            exact ih.cons_cons c
        · simp only [List.map_nil, List.nil_append]; exact ih.cons c
  exact (hsub t.seen fun c hc => (seen_needs pkgs o source i ht c).1 hc).nodup i.nodup

theorem mem_selected {o : Options} {p : Package} {f : String} :
    f ∈ selected o p ↔ f ∈ p.features.map (·.1) ∧ f ≠ "default" ∧ (o.all = true ∨ f ∈ o.features) := by
  unfold selected
  cases ho : o.all with
  | true => simp only [if_true, List.mem_filter, decide_eq_true_eq, true_or, and_true]
  | false =>
    simp only [Bool.false_eq_true, if_false, List.mem_filter, decide_eq_true_eq, false_or, List.any_eq_true]
    constructor
    · rintro ⟨⟨a, b⟩, x, c, d⟩; exact ⟨a, b, d ▸ c⟩
    · rintro ⟨a, b, c⟩; exact ⟨⟨a, b⟩, f, c, rfl⟩

/-- Every package is parsed with the features that are asked for. (Cargo enables more: see
`C79_implied_features_broken`.) -/
theorem C79_features_partial (pkgs : List Package) (o : Options) (source : String) (hs : Spelled pkgs source) (n : Nat)
    (l : List Source) (h : sourceCrates pkgs o source n = some l) (p : Package) (hp : NeedsPackage pkgs source p) (x : Source) (hx : x ∈ l)
    (hn : x.name = p.name) (f : String) : f ∈ x.features ↔ Wants pkgs o source p f := by
  unfold sourceCrates at h
  rw [Option.map_eq_some_iff] at h
  obtain ⟨t, h1, h2⟩ := h
  subst h2
  obtain ⟨i, ht⟩ := loop_inv pkgs o source n _ t (inv_init pkgs o source) h1
  have hseen := seen_needs pkgs o source i ht
  obtain ⟨c0, hc0, hg0⟩ := hp
  have hname : p.name = c0 := hs c0 p hc0 hg0
  subst hname
  -- features
  have hf : (p.name, f) ∈ t.features ↔ (p.name = source ∧ f ∈ selected o p) ∨
      ∃ q d, NeedsPackage pkgs source q ∧ d ∈ q.deps ∧ d.name = p.name ∧ f ∈ d.features := by
    rw [i.features, List.mem_flatMap]
    constructor
    · rintro ⟨c, k1, k2⟩
      unfold featuresOf at k2
      cases hg : getPackage pkgs c with
      | none => rw [hg] at k2; cases k2
      | some q =>
        rw [hg] at k2
        simp only at k2
        rcases List.mem_append.1 k2 with k3 | k3
        · obtain ⟨d, d1, d2⟩ := List.mem_flatMap.1 k3
          obtain ⟨g, g1, g2⟩ := List.mem_map.1 d2
          simp only [Prod.mk.injEq] at g2
          exact .inr ⟨q, d, ⟨c, (hseen c).1 k1, hg⟩, d1, g2.1, g2.2 ▸ g1⟩
        · split at k3
          · rename_i hcs
            obtain ⟨g, g1, g2⟩ := List.mem_map.1 k3
            simp only [Prod.mk.injEq] at g2
            obtain ⟨g3, g4⟩ := g2
            subst g4
            have : q = p := by rw [g3] at hg; rw [hg0] at hg; cases hg; rfl
            subst this
            exact .inl ⟨g3 ▸ hcs, g1⟩
          · cases k3
    · rintro (⟨k1, k2⟩ | ⟨q, d, ⟨c, c1, c2⟩, k2, k3, k4⟩)
      · refine ⟨p.name, (hseen _).2 hc0, ?_⟩
        unfold featuresOf
        rw [hg0]
        simp only
        rw [if_pos k1]
        exact List.mem_append_right _ (List.mem_map.2 ⟨f, k2, rfl⟩)
      · refine ⟨c, (hseen _).2 c1, ?_⟩
        unfold featuresOf
        rw [c2]
        simp only
        exact List.mem_append_left _ (List.mem_flatMap.2 ⟨d, k2, List.mem_map.2 ⟨f, k4, by rw [k3]⟩⟩)
  have he : p.name ∈ t.enable ↔ WantsDefault pkgs o source p := by
    unfold WantsDefault
    rw [i.enable, List.mem_flatMap]
    constructor
    · rintro ⟨c, k1, k2⟩
      unfold enableOf at k2
      cases hg : getPackage pkgs c with
      | none => rw [hg] at k2; cases k2
      | some q =>
        rw [hg] at k2
        simp only at k2
        rcases List.mem_append.1 k2 with k3 | k3
        · split at k3
          · rename_i hcs
            simp only [Bool.and_eq_true, decide_eq_true_eq, Bool.not_eq_true'] at hcs
            exact .inl ⟨(List.mem_singleton.1 k3).trans hcs.1, hcs.2⟩
          · cases k3
        · obtain ⟨d, d1, d2⟩ := List.mem_map.1 k3
          obtain ⟨d3, d4⟩ := List.mem_filter.1 d1
          exact .inr ⟨q, d, ⟨c, (hseen c).1 k1, hg⟩, d3, d2, d4⟩
    · rintro (⟨k1, k2⟩ | ⟨q, d, ⟨c, c1, c2⟩, k2, k3, k4⟩)
      · refine ⟨p.name, (hseen _).2 hc0, ?_⟩
        unfold enableOf
        rw [hg0]
        simp [k1, k2]
      · refine ⟨c, (hseen _).2 c1, ?_⟩
        unfold enableOf
        rw [c2]
        simp only
        exact List.mem_append_right _ (List.mem_map.2 ⟨d, List.mem_filter.2 ⟨k2, k4⟩, k3⟩)
  have hd : (p.name, f) ∈ t.defaults ↔ ∃ l, defaultFeatures p = some l ∧ f ∈ l := by
    rw [i.defaults, List.mem_flatMap]
    constructor
    · rintro ⟨c, k1, k2⟩
      unfold defaultsOf at k2
      cases hg : getPackage pkgs c with
      | none => rw [hg] at k2; cases k2
      | some q =>
        rw [hg] at k2
        obtain ⟨g, g1, g2⟩ := List.mem_map.1 k2
        simp only [Prod.mk.injEq] at g2
        obtain ⟨g3, g4⟩ := g2
        subst g4
        have : q = p := by rw [g3] at hg; rw [hg0] at hg; cases hg; rfl
        subst this
        cases hdf : defaultFeatures q with
        | none => rw [hdf] at g1; cases g1
        | some l => rw [hdf] at g1; exact ⟨l, rfl, g1⟩
    · rintro ⟨l, k1, k2⟩
      refine ⟨p.name, (hseen _).2 hc0, ?_⟩
      unfold defaultsOf
      rw [hg0]
      simp only [k1, Option.getD_some]
      exact List.mem_map.2 ⟨f, k2, rfl⟩
  obtain ⟨y, hy, e⟩ := List.mem_map.1 hx
  subst e
  simp only at hn
  simp only [hn, List.mem_append]
  have m1 : f ∈ (t.features.filter fun g => g.1 = p.name).map (·.2) ↔ (p.name, f) ∈ t.features := by
    constructor
    · intro hm
      obtain ⟨⟨a, b⟩, g1, g2⟩ := List.mem_map.1 hm
      obtain ⟨g3, g4⟩ := List.mem_filter.1 g1
      simp only [decide_eq_true_eq] at g4
      simp only at g2
      rw [← g4, ← g2]; exact g3
    · intro hm
      exact List.mem_map.2 ⟨(p.name, f), List.mem_filter.2 ⟨hm, by simp⟩, rfl⟩
  have m2 : f ∈ (if p.name ∈ t.enable then (t.defaults.filter fun g => g.1 = p.name).map (·.2) else []) ↔
      p.name ∈ t.enable ∧ (p.name, f) ∈ t.defaults := by
    by_cases hen : p.name ∈ t.enable
    · rw [if_pos hen]
      simp only [hen, true_and]
      constructor
      · intro hm
        obtain ⟨⟨a, b⟩, g1, g2⟩ := List.mem_map.1 hm
        obtain ⟨g3, g4⟩ := List.mem_filter.1 g1
        simp only [decide_eq_true_eq] at g4
        simp only at g2
        rw [← g4, ← g2]; exact g3
      · intro hm
        exact List.mem_map.2 ⟨(p.name, f), List.mem_filter.2 ⟨hm, by simp⟩, rfl⟩
    · rw [if_neg hen]; simp [hen]
  rw [m1, m2, hf, he, hd, mem_selected]
  unfold Wants
  constructor
  · rintro ((a | a) | a)
    · exact .inl a
    · exact .inr (.inl a)
    · exact .inr (.inr a)
  · rintro (a | a | a)
    · exact .inl (.inl a)
    · exact .inl (.inr a)
    · exact .inr a

/-- The root of a crate is found by the name of its library, if no other package or library is called like it. -/
theorem C79_root_partial (pkgs : List Package) (p : Package) (hp : p ∈ pkgs) (lib : String) (hl : p.lib = some lib)
    (hu : ∀ q ∈ pkgs, norm q.name = norm lib ∨ (∃ l, q.lib = some l ∧ norm l = norm lib) → q = p) :
    crateRoot pkgs lib = some p.root := by
  have hby : getByLib pkgs lib = some p := by
    unfold getByLib
    cases h : pkgs.reverse.find? (fun p => p.lib.any fun l => norm l = norm lib) with
    | none =>
      have := List.find?_eq_none.1 h p (List.mem_reverse.2 hp)
      simp [hl] at this
    | some q =>
      have h1 : q ∈ pkgs := List.mem_reverse.1 (List.mem_of_find?_eq_some h)
      have h2 := List.find?_some h
      cases hq : q.lib with
      | none => simp [hq] at h2
      | some l =>
        rw [hu q h1 (.inr ⟨l, hq, by simpa [hq] using h2⟩)]
  unfold crateRoot
  rw [hby]
  cases h : getPackage pkgs lib with
  | none => rfl
  | some q =>
    have h1 : q ∈ pkgs := List.mem_reverse.1 (List.mem_of_find?_eq_some h)
    have h2 : norm q.name = norm lib := by simpa using List.find?_some h
    rw [hu q h1 (.inl h2)]
    rfl

/-- The root of a crate is found by the name of its package, if no other is called like it. -/
theorem C79_root_of_package (pkgs : List Package) (p : Package) (hp : p ∈ pkgs)
    (hu : ∀ q ∈ pkgs, norm q.name = norm p.name → q = p) : crateRoot pkgs p.name = some p.root := by
  have hg : getPackage pkgs p.name = some p := by
    unfold getPackage
    cases h : pkgs.reverse.find? (fun q => norm q.name = norm p.name) with
    | none =>
      have := List.find?_eq_none.1 h p (List.mem_reverse.2 hp)
      simp at this
    | some q =>
      rw [hu q (List.mem_reverse.1 (List.mem_of_find?_eq_some h)) (by simpa using List.find?_some h)]
  unfold crateRoot
  rw [hg]
  rfl

/-! ### Examples -/

/-- A way to see that names are written as the packages write them. -/
theorem spelled_of {pkgs : List Package} {source : String}
    (h : ∀ c ∈ allNames pkgs source, (getPackage pkgs c).all fun p => p.name = c) : Spelled pkgs source := by
  intro c p hn hg
  have hc : c ∈ allNames pkgs source := by
    cases hn with
    | self => exact List.mem_cons_self ..
    | dep _ h1 h2 => exact List.mem_cons_of_mem _ (List.mem_flatMap.2 ⟨_, getPackage_mem pkgs h1, List.mem_map.2 ⟨_, h2, rfl⟩⟩)
  have := h c hc
  rw [hg] at this
  simpa using this

def uniffi : Dep := { name := "uniffi" }

/-- A crate that needs one with a feature, which needs one that is skipped, which needs the first one for its tests. -/
def exPkgs : List Package :=
  [{ name := "app", deps := [{ name := "my-lib", features := ["net"], usesDefault := false }, uniffi], src := some "app/lib.rs",
     features := [("default", ["ui"]), ("ui", []), ("extra", [])] },
   { name := "my-lib", deps := [uniffi, { name := "helper" }], src := some "my-lib/lib.rs",
     features := [("default", ["disk"]), ("disk", []), ("net", [])] },
   { name := "helper", deps := [uniffi, { name := "app" }, { name := "serde" }], src := some "helper/lib.rs", skip := true },
   { name := "other", deps := [uniffi], src := some "other/lib.rs" }]

theorem exSpelled : Spelled exPkgs "app" := spelled_of (by decide)

example : sourceCrates exPkgs { features := ["extra"] } "app" 20 =
    some [⟨"app", "app/lib.rs", ["extra", "ui"]⟩, ⟨"my-lib", "my-lib/lib.rs", ["net"]⟩] := by decide

example : NeedsPackage exPkgs "app" (exPkgs[1]) := ⟨"my-lib", .dep (d := exPkgs[0].deps[0]) .self rfl (List.mem_cons_self ..), rfl⟩

/-- The features Cargo enables: those that are asked for and those they imply. -/
inductive Enabled (pkgs : List Package) (o : Options) (source : String) (p : Package) : String → Prop
  | wanted {f : String} : Wants pkgs o source p f → Enabled pkgs o source p f
  | implied {f g : String} {l : List String} : Enabled pkgs o source p g → (g, l) ∈ p.features → f ∈ l → f ∈ p.features.map (·.1) →
      Enabled pkgs o source p f

def exImplied : Package :=
  { name := "app", deps := [uniffi], src := some "lib.rs", features := [("default", ["full"]), ("full", ["net"]), ("net", [])] }

/-- Features that are implied by others are left out: items behind them are missing from the bindings. -/
theorem C79_implied_features_broken : ∃ (pkgs : List Package) (p : Package), pkgs = [p] ∧ Spelled pkgs "app" ∧
    Enabled pkgs {} "app" p "net" ∧ sourceCrates pkgs {} "app" 9 = some [⟨"app", "lib.rs", ["full"]⟩] := by
  refine ⟨[exImplied], exImplied, rfl, spelled_of (by decide), ?_, by decide⟩
  refine .implied (g := "full") (l := ["net"]) (.wanted (.inr (.inr ⟨.inl ⟨rfl, rfl⟩, ["full"], rfl, by decide⟩))) ?_ (by decide) (by decide)
  exact List.mem_cons_of_mem _ (List.mem_cons_self ..)

/-- A crate that is given by its crate name instead of the name of its package is found, but without its features. -/
theorem C79_spelling_broken : ∃ pkgs : List Package,
    sourceCrates pkgs {} "my-crate" 9 = some [⟨"my-crate", "lib.rs", ["net"]⟩] ∧
    sourceCrates pkgs {} "my_crate" 9 = some [⟨"my-crate", "lib.rs", []⟩] :=
  ⟨[{ name := "my-crate", deps := [uniffi], src := some "lib.rs", features := [("default", ["net"]), ("net", [])] }], by decide, by decide⟩

/-- If it is needed by one of its dependencies (for tests), it is parsed twice. -/
theorem C79_twice_broken : ∃ (pkgs : List Package) (l : List Source), (pkgs.map (·.name)).Nodup ∧
    sourceCrates pkgs {} "my_crate" 9 = some l ∧ ¬ (l.map (·.name)).Nodup :=
  ⟨[{ name := "my-crate", deps := [uniffi, { name := "helper" }], src := some "lib.rs" },
    { name := "helper", deps := [{ name := "my-crate" }] }], [⟨"my-crate", "lib.rs", []⟩, ⟨"my-crate", "lib.rs", []⟩],
    by decide, by decide, by decide⟩

/-- Of two versions of a package only one is parsed. -/
theorem C79_versions_broken : ∃ (pkgs : List Package), (∀ p ∈ pkgs, shouldParse p = true) ∧ pkgs.map (·.name) = ["app", "dep", "dep"] ∧
    (sourceCrates pkgs {} "app" 9).map (·.map (·.src)) = some ["app.rs", "dep2.rs"] :=
  ⟨[{ name := "app", deps := [uniffi, { name := "dep" }], src := some "app.rs" },
    { name := "dep", deps := [uniffi], src := some "dep1.rs" }, { name := "dep", deps := [uniffi], src := some "dep2.rs" }],
    by decide, rfl, by decide⟩

/-- A package that is called like the library of another one: configuration and UDL of the wrong one are used. -/
theorem C79_root_broken : ∃ (pkgs : List Package) (p : Package), p ∈ pkgs ∧ p.lib = some "core" ∧ p.root = "/mine" ∧
    crateRoot pkgs "core" = some "/theirs" :=
  ⟨[{ name := "my-core", lib := some "core", root := "/mine" }, { name := "core", lib := some "core_api", root := "/theirs" }], _,
    List.mem_cons_self .., rfl, rfl, by decide⟩

end Verif.Props.Sources
