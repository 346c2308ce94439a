import Verif.Src.PublicLemmas
import Verif.Src.Places
namespace Verif.Src

variable {ir : Ir}

theorem canon_inv {p : RPath} (h : Canon ir p) (hl : 2 ≤ p.length) : ∃ q id mi vis items i, p = q ++ [i] ∧ Canon ir q ∧
    q.getLast? = some (.module id mi vis items) ∧ i ∈ items := by
  cases h with
  | root _ => simp at hl
  | builtin _ => simp at hl
  | item h h1 h2 => exact ⟨_, _, _, _, _, _, rfl, h, h1, h2⟩

theorem canon_head_module {p : RPath} (h : Canon ir p) : ∀ {r rest}, p = r :: rest →
    2 ≤ p.length ∨ (∃ id mi vis items, p.getLast? = some (.module id mi vis items)) →
    ∃ crate id mi vis items, r = .module id mi vis items ∧ ir.root crate = some r := by
  induction h with
  | @root crate m hr =>
    rintro r rest ⟨⟩ h
    rcases h with h | ⟨id, mi, vis, items, h⟩
    · simp at h
    · cases h; exact ⟨crate, id, mi, vis, items, rfl, hr⟩
  | builtin b =>
    rintro r rest ⟨⟩ h
    rcases h with h | ⟨id, mi, vis, items, h⟩
    · simp at h
    · exact nomatch h
  | @item p id mi vis items i hp hl hi ih =>
    intro r rest he _
    cases p with
    | nil => exact absurd rfl (canon_ne hp)
    | cons a as =>
      have : a = r := by simpa using congrArg List.head? he
      subst this
      exact ih rfl (.inr ⟨id, mi, vis, items, hl⟩)

theorem below_child {level : List RPath} {m x : RPath} (h : Below level m) (hx : x ∈ pubModules m) : Below level x := by
  induction h with
  | here hm => exact .next (.here (List.mem_flatMap.2 ⟨_, hm, hx⟩))
  | next _ ih => exact .next (ih hx)

theorem public_below {m : RPath} (h : Public ir m) : ∀ {r}, m.head? = some r → Below [[r]] m := by
  induction h with
  | root h => intro r hr; cases hr; exact .here (.head _)
  | @child p id mi vis items id' mi' items' hp hl hi ih =>
    intro r hr
    have hne := canon_ne (public_canon hp)
    have hr' : p.head? = some r := by
      cases p with
      | nil => exact absurd rfl hne
      | cons a as => exact hr
    refine below_child (ih hr') ?_
    unfold pubModules
    rw [hl]
    exact List.mem_filterMap.2 ⟨_, hi, rfl⟩

theorem below_head {level : List RPath} {m : RPath} (h : Below level m) : ∀ {r}, (∀ x ∈ level, x.head? = some r) →
    m.head? = some r := by
  induction h with
  | here hm => intro r h; exact h _ hm
  | @next level m _ ih =>
    intro r h
    refine ih ?_
    intro x hx
    obtain ⟨y, hy, hx⟩ := List.mem_flatMap.1 hx
    have hy' := h y hy
    unfold pubModules at hx
    split at hx
    · obtain ⟨i, hi, he⟩ := List.mem_filterMap.1 hx
      split at he
      · cases he
        cases y with
        | nil => exact nomatch hy'
        | cons a as => exact hy'
      · exact nomatch he
    · cases hx

/-- What holds for the result of a search for a public path of `p`. -/
structure PubOk (ir : Ir) (p : RPath) (r : Res ItemNames) : Prop where
  plain : ∀ e, r = .error e → e.fromLookup = true ∨ e = .noPubPath
  found : ∀ n, r = .ok n → ∃ target m, p.getLast? = some target ∧ Public ir m ∧ m.head? = p.head? ∧
    n.modulePath = pathString m ∧ NamesOk target n ∧ Exports ir target.addr m n.importName
  lost : r = .error .noPubPath → ∀ target, p.getLast? = some target → ∃ S,
    (∀ id ∈ S, Lacks ir target target.searchNs S id) ∧
    ∀ m, Public ir m → m.head? = p.head? → ∀ id mi vis items, m.getLast? = some (.module id mi vis items) → id ∈ S
  clean : 2 ≤ p.length → ∀ k target, p.getLast? = some target → Clean ir k target.searchNs → target.ident ≠ none →
    ∀ e, r = .error e → e = .noPubPath

theorem publicPathBody_wp (hu : ir.Unique) {p : RPath} (hp : Canon ir p) :
    (publicPathBody ir ir.searchDepth (levelsFor p) p).wp (AskOk ir ir.useIdents) (AnsRef ir) (PubOk ir p) := by
  unfold publicPathBody
  split
  · rename_i hn
    exact absurd (List.getLast?_eq_none_iff.1 hn) (canon_ne hp)
  · rename_i target hlt
    by_cases hlen : 2 ≤ p.length
    · obtain ⟨q, id, mi, vis, items, i, rfl, hq, hql, hi⟩ := canon_inv hp hlen
      have hpar : RPath.parent (q ++ [i]) = .ok q := by
        unfold RPath.parent
        split
        · rename_i h; simp at h
        · rename_i h
          have := congrArg List.length h
          have := canon_ne hq
          cases q <;> simp_all
        · rw [List.dropLast_concat]
      rw [hpar]
      dsimp only
      cases q with
      | nil => exact absurd rfl (canon_ne hq)
      | cons root rest =>
        obtain ⟨crate, rid, rmi, rvis, ritems, rfl, hroot⟩ := canon_head_module hq rfl (.inr ⟨_, _, _, _, hql⟩)
        simp only [RPath.crateRoot, List.getLast?_singleton]
        refine wp_mono ?_ (searchLevels_wp hu hp hlt (n := levelsFor _) (level := [_]) (s := [])
          ?_ ?_ ?_ List.nodup_nil (List.nil_subset _) nofun)
        · rintro r ⟨h1, h2, h3, h4⟩
          refine ⟨h1, ?_, ?_, ?_⟩
          · intro n hn
            obtain ⟨m, hm, hb, h⟩ := h2 n hn
            refine ⟨target, m, hlt, hm, ?_, h⟩
            refine below_head hb ?_
            intro x hx
            cases hx with
            | head => rfl
            | tail _ h => cases h
          · intro hr target' hlt'
            rw [hlt] at hlt'
            cases hlt'
            obtain ⟨S, hS, _, hb⟩ := h3 hr
            refine ⟨S, hS, ?_⟩
            intro m hm hhead id' mi' vis' items' hml
            exact hb m (public_below hm hhead) id' mi' vis' items' hml
          · intro _ k target' hlt' hk hid
            rw [hlt] at hlt'
            cases hlt'
            exact h4 k hk hid
        · intro m hm
          cases hm with
          | head => exact .root hroot
          | tail _ h => cases h
        · intro m hm
          cases hm with
          | head =>
            show RPath.height [_] < levelsFor (_ :: _)
            unfold RPath.height levelsFor
            dsimp only [List.getLast?_singleton]
            omega
          | tail _ h => cases h
        · show 0 < levelsFor (_ :: _)
          exact Nat.succ_pos _
    · have hpar : RPath.parent p = .error .internal := by
        match p with
        | [] => rfl
        | [_] => rfl
        | _ :: _ :: _ => simp at hlen
      rw [hpar]
      exact ⟨fun e h => by cases h; exact .inl rfl, nofun, nofun, fun h => absurd h hlen⟩

/-- The cache of public paths. -/
def FullGood (ir : Ir) (c : FullCache) : Prop :=
  Reach ir c.lookups ∧ ∀ e ∈ c.publicPaths, ∃ q, Canon ir q ∧ RPath.isDecl q = true ∧ e.1 = pathString q ∧ PubOk ir q e.2

theorem publicPath_good (hu : ir.Unique) {p : RPath} (hp : Canon ir p) (hd : RPath.isDecl p = true) {c} (h : FullGood ir c) :
    FullGood ir (publicPathTop ir p c).2 := by
  unfold publicPathTop publicPath
  split
  · exact h
  · have := run_wp hu (publicPathBody_wp hu hp) h.1
    refine ⟨this.2, ?_⟩
    intro e he
    cases he with
    | head => exact ⟨p, hp, hd, rfl, this.1⟩
    | tail _ he => exact h.2 e he

theorem fullReach_good (hu : ir.Unique) {c} (h : FullReach ir c) : FullGood ir c := by
  induction h with
  | empty => exact ⟨.empty, nofun⟩
  | child ident ns _ hp ih => exact ⟨.child ident ns ih.1 hp, ih.2⟩
  | publicPath _ hp hd ih => exact publicPath_good hu hp hd ih

/-- The result, up to the error that is put around it. -/
theorem publicPathTop_ok (hu : ir.Unique) {p : RPath} (hp : Canon ir p) {c} (hc : FullReach ir c) (ho : OnlyPath ir p) :
    ∃ r, PubOk ir p r ∧ ((publicPathTop ir p c).1 = r ∨ ∃ e, r = .error e ∧ (publicPathTop ir p c).1 = .error .noPubPath) := by
  have hg := fullReach_good hu hc
  unfold publicPathTop publicPath
  split
  · rename_i r hr
    obtain ⟨e, he, rfl⟩ := Option.map_eq_some_iff.1 hr
    have hk := List.find?_some he
    have hm := List.mem_of_find?_eq_some he
    obtain ⟨q, hq, hd, h1, h2⟩ := hg.2 e hm
    have : q = p := ho q hq hd (h1.symm.trans (by simpa using hk))
    subst this
    exact ⟨_, h2, .inl rfl⟩
  · have := (run_wp hu (publicPathBody_wp hu hp) hg.1).1
    refine ⟨_, this, ?_⟩
    dsimp only
    split
    · rename_i h; exact .inl h.symm
    · rename_i h; exact .inl h.symm
    · rename_i h; exact .inl h.symm
    · rename_i h; exact .inr ⟨_, h, rfl⟩

theorem resolveRef_canon (hu : ir.Unique) {m path ns k q} (hm : Canon ir m) (h : resolveRef ir k m path ns = .ok q) :
    Canon ir q := by
  have := resolve_main hu path ns hm .empty
  exact (this.1.2 q ((this.2.2 k (by rw [Ends, h]; exact nofun)).trans h)).1

theorem leads_lost (hu : ir.Unique) {target : Item}
    {S : List Nat} (hS : ∀ id ∈ S, Lacks ir target target.searchNs S id) (hns : target.searchNs = .type) {k m}
    (h : Leads ir k target m) : Canon ir m → ∀ id mi vis items, m.getLast? = some (.module id mi vis items) →
      id ∈ S → False := by
  induction h with
  | declared hl hi he =>
    intro hm id mi vis items hl' hid
    rw [hl] at hl'; cases hl'
    exact (hS _ hid _ _ _ _ hm hl _ hi).1 he
  | imported hl hi hr he =>
    intro hm id mi vis items hl' hid
    rw [hl] at hl'; cases hl'
    exact (hS _ hid _ _ _ _ hm hl _ hi).2.1 _ _ _ rfl _ _ hr he
  | @glob m id mi vis items uid path q hl hi hr hq ih =>
    intro hm id mi vis items hl' hid
    rw [hl] at hl'; cases hl'
    have hcq : Canon ir q := resolveRef_canon hu hm hr
    have hmod : ∃ id' mi' vis' items', q.getLast? = some (.module id' mi' vis' items') := by
      cases hq with
      | declared h _ _ => exact ⟨_, _, _, _, h⟩
      | imported h _ _ _ => exact ⟨_, _, _, _, h⟩
      | glob h _ _ _ => exact ⟨_, _, _, _, h⟩
    obtain ⟨id', mi', vis', items', hql⟩ := hmod
    exact ih hcq _ _ _ _ hql ((hS _ hid _ _ _ _ hm hl _ hi).2.2 _ _ rfl _ _ _ _ _ _ (hns ▸ hr) hql)

theorem publicPathTop_plain (hu : ir.Unique) {p : RPath} (hp : Canon ir p) {c} (hc : FullReach ir c) {e}
    (h : (publicPathTop ir p c).1 = .error e) : e.fromLookup = true ∨ e = .noPubPath := by
  have hg := fullReach_good hu hc
  unfold publicPathTop publicPath at h
  split at h
  · rename_i r hr
    obtain ⟨x, hx, rfl⟩ := Option.map_eq_some_iff.1 hr
    obtain ⟨q, _, _, _, h2⟩ := hg.2 x (List.mem_of_find?_eq_some hx)
    exact h2.plain e h
  · have := (run_wp hu (publicPathBody_wp hu hp) hg.1).1
    dsimp only at h
    split at h
    · exact nomatch h
    · cases h; exact .inl rfl
    · rename_i hf
      rcases this.plain _ hf with h | h <;> exact nomatch h
    · cases h; exact .inr rfl

/-! ### Asking again -/

/-- The cached answer for a path. -/
def FullCache.get (c : FullCache) (p : RPath) : Option (Res ItemNames) :=
  (c.publicPaths.find? fun e => e.1 == pathString p).map (·.2)

/-- The caches after more lookups. -/
inductive FullLater (ir : Ir) (c : FullCache) : FullCache → Prop
  | refl : FullLater ir c c
  | child {c' p} (ident : Ident) (ns : Ns) : FullLater ir c c' →
      FullLater ir c { c' with lookups := (child ir ir.fuel p ident ns c'.lookups).2 }
  | publicPath {c' p} : FullLater ir c c' → FullLater ir c (publicPathTop ir p c').2

theorem get_publicPath {p q : RPath} {c r} (h : FullCache.get c p = some r) :
    FullCache.get (publicPathTop ir q c).2 p = some r := by
  unfold publicPathTop publicPath
  split
  · exact h
  · rename_i hn
    unfold FullCache.get at h ⊢
    dsimp only
    rw [List.find?_cons]
    split
    · rename_i he
      have he : pathString q = pathString p := by simpa using he
      rw [he, h] at hn
      exact nomatch hn
    · exact h

theorem get_later {p : RPath} {c c' r} (h : FullCache.get c p = some r) (hl : FullLater ir c c') :
    FullCache.get c' p = some r := by
  induction hl with
  | refl => exact h
  | child _ _ _ ih => exact ih
  | publicPath _ ih => exact get_publicPath ih

theorem get_after {p : RPath} {c n} (h : (publicPathTop ir p c).1 = .ok n) :
    FullCache.get (publicPathTop ir p c).2 p = some (.ok n) := by
  unfold publicPathTop publicPath at h ⊢
  split at h
  · rename_i r hr
    cases h
    exact hr
  · dsimp only at h ⊢
    unfold FullCache.get
    rw [List.find?_cons]
    simp only [beq_self_eq_true, Option.map_some]
    split at h
    · rename_i hr; cases h; rw [hr]
    · exact nomatch h
    · exact nomatch h
    · exact nomatch h

theorem publicPath_get {p : RPath} {c r} (h : FullCache.get c p = some r) : (publicPathTop ir p c).1 = r := by
  unfold publicPathTop publicPath
  unfold FullCache.get at h
  rw [h]

/-! ### Checks for examples -/

def Clean.check (ir : Ir) (k : Nat) (ns : Ns) : Bool :=
  ir.places.all fun m => match m.getLast? with
    | some (.module _ _ _ items) => items.all fun i => match i with
      | .useItem _ .pub path _ => match resolveRef ir k m path ns with
        | .ok _ | .error .notFound => true
        | _ => false
      | .useGlob _ .pub path => match resolveRef ir k m path ns with
        | .ok q => match q.getLast? with
          | some (.module _ _ _ _) => true
          | _ => false
        | .error .notFound => true
        | _ => false
      | _ => true
    | _ => true

theorem clean_of_check {k ns} (h : Clean.check ir k ns = true) : Clean ir k ns := by
  intro m id mi vis items hm hl i hi
  rw [Clean.check, List.all_eq_true] at h
  rcases canon_places hm with hp | ⟨b, rfl⟩
  · have := h m hp
    rw [hl] at this
    dsimp only at this
    rw [List.all_eq_true] at this
    have := this i hi
    split
    · dsimp only at this
      split at this
      · rename_i q hq; exact .inl ⟨q, hq⟩
      · rename_i hq; exact .inr hq
      · exact nomatch this
    · dsimp only at this
      split at this
      · rename_i q hq
        split at this
        · rename_i hql; exact .inl ⟨q, _, _, _, _, hq, hql⟩
        · exact nomatch this
      · rename_i hq; exact .inr hq
      · exact nomatch this
    · trivial
  · exact nomatch hl

def OnlyPath.check (ir : Ir) : Bool := decide ((ir.places.filter RPath.isDecl).map pathString).Nodup

theorem only_of_check (h : OnlyPath.check ir = true) {p : RPath} (hp : Canon ir p) (hd : RPath.isDecl p = true) :
    OnlyPath ir p := by
  have h := of_decide_eq_true h
  intro q hq hqd he
  have mem : ∀ {x : RPath}, Canon ir x → RPath.isDecl x = true → x ∈ ir.places.filter RPath.isDecl := by
    intro x hx hxd
    rcases canon_places hx with hx | ⟨b, rfl⟩
    · exact List.mem_filter.2 ⟨hx, hxd⟩
    · exact nomatch hxd
  exact map_nodup_inj (f := pathString) h (mem hq hqd) (mem hp hd) he

theorem isDecl_length {p : RPath} (h : RPath.isDecl p = true) : 2 ≤ p.length := by
  match p with
  | [] => exact nomatch h
  | [_] => exact nomatch h
  | _ :: _ :: _ => simp

theorem isDecl_ident {p : RPath} {t} (h : RPath.isDecl p = true) (ht : p.getLast? = some t) : t.ident ≠ none := by
  unfold RPath.isDecl at h
  rw [ht] at h
  split at h
  · rename_i he; cases he; exact nofun
  · exact nomatch h

end Verif.Src
