import Verif.Src.PublicSpec
import Verif.Src.PathsMain
namespace Verif.Src

variable {ir : Ir} {target : Item} {ns : Ns}

/-- The names in a result: the name for the bindings, and the name to import. -/
def NamesOk (target : Item) (n : ItemNames) : Prop :=
  ∃ ident, target.ident = some ident ∧ n.name = target.nameFromAttrs.getD ident.show

/-- An item in the module at `m` is not the target and does not lead to it, but maybe to a module in `S`. -/
def Past (ir : Ir) (target : Item) (ns : Ns) (S : List Nat) (m : RPath) (i : Item) : Prop :=
  i.addr ≠ target.addr ∧
  (∀ uid path ident, i = .useItem uid .pub path ident → ∀ k q, resolveRef ir k m path ns = .ok q →
    q.getLast?.map Item.addr ≠ some target.addr) ∧
  (∀ uid path, i = .useGlob uid .pub path → ∀ k q id mi vis items, resolveRef ir k m path ns = .ok q →
    q.getLast? = some (.module id mi vis items) → id ∈ S)

theorem past_mono {S S' m i} (h : Past ir target ns S m i) (hS : S ⊆ S') : Past ir target ns S' m i :=
  ⟨h.1, h.2.1, fun uid path he k q id mi vis items h1 h2 => hS (h.2.2 uid path he k q id mi vis items h1 h2)⟩

/-- The module does not contain the item, nor a `pub use` of it. -/
def Lacks (ir : Ir) (target : Item) (ns : Ns) (S : List Nat) (id : Nat) : Prop :=
  ∀ m mi vis items, Canon ir m → m.getLast? = some (.module id mi vis items) → ∀ i ∈ items, Past ir target ns S m i

theorem lacks_mono {S S' id} (h : Lacks ir target ns S id) (hS : S ⊆ S') : Lacks ir target ns S' id :=
  fun m mi vis items h1 h2 i hi => past_mono (h m mi vis items h1 h2 i hi) hS

/-- No error, if the program has no `pub use` that leads to an error. -/
def NoErr {α : Type} (ir : Ir) (target : Item) (ns : Ns) (r : Res α) : Prop :=
  ∀ k, Clean ir k ns → target.ident ≠ none → ∀ e, r ≠ .error e

/-- What holds after a search in the module at `m`. -/
structure SearchOk (ir : Ir) (target : Item) (ns : Ns) (m : RPath) (before : List Nat) (r : Search) : Prop where
  nodup : r.2.Nodup
  sub : r.2 ⊆ ir.moduleIds
  grows : before ⊆ r.2
  plain : Plain r.1
  found : ∀ n, r.1 = .ok (some n) → n.modulePath = pathString m ∧ NamesOk target n ∧
    Exports ir target.addr m n.importName
  rest : r.1 = .ok none → ∀ id ∈ r.2, id ∈ before ∨ Lacks ir target ns r.2 id
  clean : NoErr ir target ns r.1

theorem declNames_ok {m : RPath} {n} (h : declNames m target = .ok n) :
    n.modulePath = pathString m ∧ NamesOk target n ∧ ∃ ident, target.ident = some ident ∧ n.importName = ident.show := by
  unfold declNames at h
  split at h
  · exact nomatch h
  · rename_i ident hid
    split at h
    · rename_i hn
      cases h; exact ⟨rfl, ⟨ident, hid, by rw [hn]; rfl⟩, ident, hid, rfl⟩
    · rename_i hn
      cases h; exact ⟨rfl, ⟨ident, hid, by rw [hn]; rfl⟩, ident, hid, rfl⟩

theorem useNames_ok {m : RPath} {u n} (h : useNames m target u = .ok n) :
    n.modulePath = pathString m ∧ NamesOk target n ∧ n.importName = u.show := by
  unfold useNames at h
  split at h
  · exact nomatch h
  · rename_i ident hid
    dsimp only at h
    split at h
    · rename_i he
      cases h; exact ⟨rfl, ⟨ident, hid, rfl⟩, he⟩
    · cases h; exact ⟨rfl, ⟨ident, hid, rfl⟩, rfl⟩

theorem declNames_plain {m : RPath} : Plain (someNames (declNames m target)) := by
  intro e h
  unfold declNames at h
  split at h
  · cases h; rfl
  · split at h <;> exact nomatch h

theorem useNames_plain {m : RPath} {u} : Plain (someNames (useNames m target u)) := by
  intro e h
  unfold useNames at h
  split at h
  · cases h; rfl
  · dsimp only at h
    split at h <;> exact nomatch h

theorem declNames_err {m : RPath} : NoErr ir target ns (someNames (declNames m target)) := by
  intro k _ hi e h
  unfold declNames at h
  split at h
  · rename_i hn; exact hi hn
  · split at h <;> exact nomatch h

theorem useNames_err {m : RPath} {u} : NoErr ir target ns (someNames (useNames m target u)) := by
  intro k _ hi e h
  unfold useNames at h
  split at h
  · rename_i hn; exact hi hn
  · dsimp only at h
    split at h <;> exact nomatch h

theorem someNames_some {r : Res ItemNames} {n} (h : someNames r = .ok (some n)) : r = .ok n := by
  cases r with
  | error e => exact nomatch h
  | ok a => cases h; rfl

theorem someNames_none {r : Res ItemNames} : someNames r ≠ .ok none := by
  cases r <;> exact nofun

/-- An item that is the target, up to its address, has the same identifier. -/
theorem ident_of_addr (hu : ir.Unique) {p q : RPath} (hp : Canon ir p) (hq : Canon ir q) {i j : Item}
    (hi : p.getLast? = some i) (hj : q.getLast? = some j) (h : i.addr = j.addr) : i = j := by
  have := hu p q hp hq (by rw [hi, hj]; simp [h])
  subst this
  rw [hi] at hj
  exact Option.some.inj hj

/-- The recursive call of the search. -/
def RecOk (ir : Ir) (target : Item) (ns : Ns) (rec : RPath → Nat → List Item → List Nat → Prog Search) (before : List Nat) : Prop :=
  ∀ q id mi vis items s, Canon ir q → q.getLast? = some (.module id mi vis items) → s.Nodup → s ⊆ ir.moduleIds →
    before ⊆ s → (rec q id items s).wp (AskOk ir ir.useIdents) (AnsRef ir)
      (fun r => SearchOk ir target ns q s r ∧ (r.1 = .ok none → id ∈ r.2))

section
variable {m : RPath} {id : Nat} {mi : Ident} {vis : Vis} {items : List Item}

theorem use_sub (hm : Canon ir m) (hl : m.getLast? = some (.module id mi vis items)) {i : Item} (h : i ∈ items) :
    ∀ x ∈ i.useIdents, x ∈ ir.useIdents :=
  useRemote_mem (fun x hx => (canon_last hm hl).2 x (by rw [Item.useIdents]; exact hx)) h

/-- After the loop over some of the items. -/
def LoopOk (ir : Ir) (target : Item) (ns : Ns) (m : RPath) (is : List Item) (before : List Nat) (r : Search) : Prop :=
  r.2.Nodup ∧ r.2 ⊆ ir.moduleIds ∧ before ⊆ r.2 ∧ Plain r.1 ∧
  (∀ n, r.1 = .ok (some n) → n.modulePath = pathString m ∧ NamesOk target n ∧
    Exports ir target.addr m n.importName) ∧
  (r.1 = .ok none → (∀ i ∈ is, Past ir target ns r.2 m i) ∧ ∀ id ∈ r.2, id ∈ before ∨ Lacks ir target ns r.2 id) ∧
  NoErr ir target ns r.1

theorem searchItems_wp (hu : ir.Unique) {pt : RPath} (hpt : Canon ir pt) (hlt : pt.getLast? = some target)
    {rec} (hm : Canon ir m)
    (hl : m.getLast? = some (.module id mi vis items)) {before} (hrec : RecOk ir target ns rec before) :
    ∀ {is : List Item} {s : List Nat}, (∀ i ∈ is, i ∈ items) → s.Nodup → s ⊆ ir.moduleIds → before ⊆ s →
      (searchItems rec ir target ns m is s).wp (AskOk ir ir.useIdents) (AnsRef ir) (LoopOk ir target ns m is s)
  | [], s, _, hnd, hsub, _ => ⟨hnd, hsub, fun _ h => h, nofun, nofun, fun _ => ⟨nofun, fun _ h => .inl h⟩, nofun⟩
  | i :: is, s, his, hnd, hsub, hbef => by
    have hmem := his i (.head _)
    have hrest : ∀ {i' : Item} {s'}, Past ir target ns s' m i' → s'.Nodup → s' ⊆ ir.moduleIds → s ⊆ s' →
        (∀ id ∈ s', id ∈ s ∨ Lacks ir target ns s' id) →
        (searchItems rec ir target ns m is s').wp (AskOk ir ir.useIdents) (AnsRef ir)
          (LoopOk ir target ns m (i' :: is) s) := by
      intro i' s' hi' h1 h2 h3 h4
      refine wp_mono ?_ (searchItems_wp hu hpt hlt hm hl hrec (is := is) (s := s')
        (fun j hj => his j (.tail _ hj)) h1 h2 (fun x hx => h3 (hbef hx)))
      rintro r ⟨a1, a2, a3, a4, a5, a6, a7⟩
      refine ⟨a1, a2, fun x hx => a3 (h3 hx), a4, a5, fun hr => ⟨?_, ?_⟩, a7⟩
      · intro j hj
        cases hj with
        | head => exact past_mono hi' a3
        | tail _ hj => exact (a6 hr).1 j hj
      · intro x hx
        rcases (a6 hr).2 x hx with h | h
        · exact (h4 x h).imp (fun h => h) (fun h => lacks_mono h a3)
        · exact .inr h
    have hstop : ∀ {i' : Item} {r}, Plain r → r ≠ .ok none → (∀ n, r = .ok (some n) → n.modulePath = pathString m ∧
        NamesOk target n ∧ Exports ir target.addr m n.importName) → NoErr ir target ns r →
        LoopOk ir target ns m (i' :: is) s (r, s) :=
      fun h1 h2 h3 h4 => ⟨hnd, hsub, fun _ h => h, h1, h3, fun h => absurd h h2, h4⟩
    rw [searchItems.eq_def]
    dsimp only
    split
    · rename_i heq
      refine hstop declNames_plain someNames_none ?_ declNames_err
      intro n hn
      obtain ⟨h1, h2, ident, hid, h3⟩ := declNames_ok (someNames_some hn)
      refine ⟨h1, h2, h3 ▸ ?_⟩
      have := ident_of_addr hu (Canon.item hm hl hmem) hpt (List.getLast?_concat) hlt heq
      exact .declared hl hmem heq (this ▸ hid)
    · rename_i hne
      split
      · rename_i uid path useIdent
        refine wp_bind (wp_mono ?_ (resolve_ref hm (use_sub hm hl hmem)))
        rintro a ⟨ha, href⟩
        split
        · rename_i q
          have hq := ha.2 q rfl
          split
          · rename_i hnone
            exact absurd (List.getLast?_eq_none_iff.1 hnone) (canon_ne hq.1)
          · rename_i last hlast
            split
            · rename_i heq
              refine hstop useNames_plain someNames_none ?_ useNames_err
              intro n hn
              obtain ⟨h1, h2, h3⟩ := useNames_ok (someNames_some hn)
              exact ⟨h1, h2, h3 ▸ .imported hl hmem hq.2 (by rw [hlast]; simp [heq])⟩
            · rename_i hdiff
              refine hrest ⟨hne, ?_, nofun⟩ hnd hsub (fun _ h => h) (fun _ h => .inl h)
              rintro _ _ _ ⟨⟩ k q' hq' he
              have := href k (by rw [hq']; exact nofun)
              rw [hq'] at this
              cases this
              rw [hlast] at he
              exact hdiff (Option.some.inj he)
        · refine hrest ⟨hne, ?_, nofun⟩ hnd hsub (fun _ h => h) (fun _ h => .inl h)
          rintro _ _ _ ⟨⟩ k q' hq'
          have := href k (by rw [hq']; exact nofun)
          rw [hq'] at this
          exact nomatch this
        · rename_i e hne'
          refine hstop (err_cast ha.1) nofun nofun ?_
          intro k hk _ e' _
          rcases hk m id mi vis items hm hl _ hmem with ⟨q, hq⟩ | hq
          · have := href k (by rw [hq]; exact nofun); rw [hq] at this; exact nomatch this
          · have := href k (by rw [hq]; exact nofun); rw [hq] at this; cases this; exact hne' rfl
      · rename_i uid path
        refine wp_bind (wp_mono ?_ (resolve_ref hm (use_sub hm hl hmem)))
        rintro a ⟨ha, href⟩
        split
        · rename_i q
          have hq := ha.2 q rfl
          split
          · rename_i id' mi' vis' items' hlast
            refine wp_bind (wp_mono ?_ (hrec q id' mi' vis' items' s hq.1 hlast hnd hsub hbef))
            rintro r ⟨hr, hrid⟩
            split
            · rename_i names s'
              refine ⟨hr.nodup, hr.sub, hr.grows, nofun, ?_, nofun, nofun⟩
              intro n hn
              cases hn
              have := hr.found _ rfl
              exact ⟨rfl, this.2.1, .glob hl hmem hq.2 this.2.2⟩
            · rename_i s'
              refine hrest ⟨hne, nofun, ?_⟩ hr.nodup hr.sub hr.grows (hr.rest rfl)
              rintro _ _ ⟨⟩ k q' id'' mi'' vis'' items'' hq' hl'
              have := href k (by rw [hq']; exact nofun)
              rw [hq'] at this
              cases this
              rw [hlast] at hl'
              cases hl'
              exact hrid rfl
            · exact ⟨hr.nodup, hr.sub, hr.grows, err_cast hr.plain, nofun, nofun,
                fun k hk hi e' _ => hr.clean k hk hi _ rfl⟩
          · rename_i hmod
            refine hstop (fun _ h => by cases h; rfl) nofun nofun ?_
            intro k hk _ e' _
            rcases hk m id mi vis items hm hl _ hmem with ⟨q', id', mi', vis', items', hq', hql⟩ | hq'
            · have := href k (by rw [hq']; exact nofun)
              rw [hq'] at this
              cases this
              exact hmod _ _ _ _ hql
            · have := href k (by rw [hq']; exact nofun); rw [hq'] at this; exact nomatch this
        · refine hrest ⟨hne, nofun, ?_⟩ hnd hsub (fun _ h => h) (fun _ h => .inl h)
          rintro _ _ ⟨⟩ k q' id'' mi'' vis'' items'' hq'
          have := href k (by rw [hq']; exact nofun)
          rw [hq'] at this
          exact nomatch this
        · rename_i e hne'
          refine hstop (err_cast ha.1) nofun nofun ?_
          intro k hk _ e' _
          rcases hk m id mi vis items hm hl _ hmem with ⟨q', id', mi', vis', items', hq', hql⟩ | hq'
          · have := href k (by rw [hq']; exact nofun); rw [hq'] at this; exact nomatch this
          · have := href k (by rw [hq']; exact nofun); rw [hq'] at this; cases this; exact hne' rfl
      · rename_i h1 h2
        exact hrest ⟨hne, fun uid path ident he => absurd he (h1 uid path ident), fun uid path he => absurd he (h2 uid path)⟩
          hnd hsub (fun _ h => h) (fun _ h => .inl h)

end

theorem searchModule_wp (hu : ir.Unique) {pt : RPath} (hpt : Canon ir pt) (hlt : pt.getLast? = some target) :
    ∀ {n : Nat} {m : RPath} {id mi vis items s}, Canon ir m → m.getLast? = some (.module id mi vis items) →
      s.Nodup → s ⊆ ir.moduleIds → ir.moduleIds.length < n + s.length →
      (searchModule ir target ns n m id items s).wp (AskOk ir ir.useIdents) (AnsRef ir)
        (fun r => SearchOk ir target ns m s r ∧ (r.1 = .ok none → id ∈ r.2)) := by
  intro n
  induction n with
  | zero =>
    intro m id mi vis items s _ _ hnd hsub hlen
    have := List.Nodup.length_le_of_subset hnd hsub
    omega
  | succ n ih =>
    intro m id mi vis items s hm hl hnd hsub hlen
    rw [searchModule]
    split
    · rename_i hin
      exact ⟨⟨hnd, hsub, fun _ h => h, nofun, nofun, fun _ _ h => .inl h, nofun⟩, fun _ => hin⟩
    · rename_i hin
      have hid : id ∈ ir.moduleIds := (canon_last hm hl).1 _ (by rw [Item.moduleIds]; exact .head _)
      have hnd' : (id :: s).Nodup := List.nodup_cons.2 ⟨hin, hnd⟩
      have hsub' : (id :: s) ⊆ ir.moduleIds := List.cons_subset.2 ⟨hid, hsub⟩
      refine wp_mono ?_ (searchItems_wp hu hpt hlt hm hl (before := id :: s) ?_ (fun i hi => hi) hnd' hsub' (fun _ h => h))
      · rintro r ⟨a1, a2, a3, a4, a5, a6, a7⟩
        refine ⟨⟨a1, a2, fun x hx => a3 (.tail _ hx), a4, a5, ?_, a7⟩, fun _ => a3 (.head _)⟩
        intro hr x hx
        rcases (a6 hr).2 x hx with h | h
        · cases h with
          | head =>
            right
            intro m' mi' vis' items' hm' hl' i hi
            have := same_place hu hm hm' hl hl'
            subst this
            rw [hl] at hl'
            cases hl'
            exact (a6 hr).1 i hi
          | tail _ h => exact .inl h
        · exact .inr h
      · intro q id' mi' vis' items' s' hq hql hnd'' hsub'' hbef
        refine ih hq hql hnd'' hsub'' ?_
        have := List.Nodup.length_le_of_subset hnd' hbef
        simp only [List.length_cons] at this
        omega

/-! ### The levels -/

theorem public_canon {m : RPath} (h : Public ir m) : Canon ir m := by
  induction h with
  | root h => exact .root h
  | child _ hl hi ih => exact .item ih hl hi

theorem public_module {m : RPath} (h : Public ir m) : ∃ id ident vis items, m.getLast? = some (.module id ident vis items) := by
  cases h with
  | root h => exact ⟨_, _, _, _, rfl⟩
  | child _ _ _ => exact ⟨_, _, _, _, List.getLast?_concat⟩

theorem pubModules_public {m x : RPath} (h : Public ir m) (hx : x ∈ pubModules m) : Public ir x := by
  unfold pubModules at hx
  split at hx
  · rename_i hl
    obtain ⟨i, hi, he⟩ := List.mem_filterMap.1 hx
    split at he
    · cases he; exact .child h hl hi
    · exact nomatch he
  · cases hx

/-- The nesting of the module at the end of a path. -/
def RPath.height (m : RPath) : Nat :=
  match m.getLast? with
  | some i => i.height
  | none => 0

theorem height_mem {items : List Item} {i : Item} (h : i ∈ items) : i.height ≤ itemsHeight items := by
  induction items with
  | nil => cases h
  | cons a as ih =>
    rw [itemsHeight]
    cases h with
    | head => exact Nat.le_max_left _ _
    | tail _ h => exact Nat.le_trans (ih h) (Nat.le_max_right _ _)

theorem pubModules_height {m x : RPath} (hx : x ∈ pubModules m) : RPath.height x < RPath.height m := by
  unfold pubModules at hx
  split at hx
  · rename_i id ident vis items hl
    obtain ⟨i, hi, he⟩ := List.mem_filterMap.1 hx
    split at he
    · cases he
      unfold RPath.height
      rw [List.getLast?_concat, hl]
      dsimp only
      rw [Item.height.eq_def (.module id ident vis items)]
      have := height_mem hi
      dsimp only
      omega
    · exact nomatch he
  · cases hx

theorem searchLevel_wp (hu : ir.Unique) {pt : RPath} (hpt : Canon ir pt) (hlt : pt.getLast? = some target) :
    ∀ {level : List RPath} {s}, (∀ m ∈ level, Public ir m) → s.Nodup → s ⊆ ir.moduleIds →
      (searchLevel ir target ns ir.searchDepth level s).wp (AskOk ir ir.useIdents) (AnsRef ir) (fun r =>
        r.2.Nodup ∧ r.2 ⊆ ir.moduleIds ∧ s ⊆ r.2 ∧ Plain r.1 ∧
        (∀ n, r.1 = .ok (some n) → ∃ m ∈ level, n.modulePath = pathString m ∧ NamesOk target n ∧
          Exports ir target.addr m n.importName) ∧
        (r.1 = .ok none → (∀ m ∈ level, ∀ id mi vis items, m.getLast? = some (.module id mi vis items) → id ∈ r.2) ∧
          ∀ id ∈ r.2, id ∈ s ∨ Lacks ir target ns r.2 id) ∧ NoErr ir target ns r.1)
  | [], s, _, hnd, hsub => ⟨hnd, hsub, fun _ h => h, nofun, nofun, fun _ => ⟨nofun, fun _ h => .inl h⟩, nofun⟩
  | m :: rest, s, hpub, hnd, hsub => by
    obtain ⟨id, mi, vis, items, hl⟩ := public_module (hpub m (.head _))
    rw [searchLevel, hl]
    dsimp only
    refine wp_bind (wp_mono ?_ (searchModule_wp hu hpt hlt (public_canon (hpub m (.head _))) hl hnd hsub
      (by rw [Ir.searchDepth]; omega)))
    rintro r ⟨hr, hid⟩
    split
    · rename_i s'
      refine wp_mono ?_ (searchLevel_wp hu hpt hlt (level := rest) (fun m hm => hpub m (.tail _ hm)) hr.nodup hr.sub)
      rintro r' ⟨a1, a2, a3, a4, a5, a6, a7⟩
      refine ⟨a1, a2, fun x hx => a3 (hr.grows hx), a4, ?_, ?_, a7⟩
      · intro n hn
        obtain ⟨m', hm', h⟩ := a5 n hn
        exact ⟨m', .tail _ hm', h⟩
      · intro hr'
        refine ⟨?_, ?_⟩
        · intro m' hm' id' mi' vis' items' hl'
          cases hm' with
          | head =>
            rw [hl] at hl'
            cases hl'
            exact a3 (hid rfl)
          | tail _ hm' => exact (a6 hr').1 m' hm' id' mi' vis' items' hl'
        · intro x hx
          rcases (a6 hr').2 x hx with h | h
          · exact (hr.rest rfl x h).imp (fun h => h) (fun h => lacks_mono h a3)
          · exact .inr h
    · rename_i r1 s1 hnn
      refine ⟨hr.nodup, hr.sub, hr.grows, hr.plain, ?_, ?_, hr.clean⟩
      · intro n hn
        exact ⟨m, .head _, hr.found n hn⟩
      · intro h
        have h : r1 = .ok none := h
        subst h
        exact (hnn rfl).elim

/-- A place that a public module below `level` has. -/
inductive Below : List RPath → RPath → Prop
  | here {level m} : m ∈ level → Below level m
  | next {level m} : Below (level.flatMap pubModules) m → Below level m

theorem searchLevels_wp (hu : ir.Unique) {pt : RPath} (hpt : Canon ir pt) (hlt : pt.getLast? = some target) :
    ∀ {n : Nat} {level : List RPath} {s}, (∀ m ∈ level, Public ir m) → (∀ m ∈ level, RPath.height m < n) → 0 < n →
      s.Nodup → s ⊆ ir.moduleIds → (∀ id ∈ s, Lacks ir target ns s id) →
      (searchLevels ir target ns ir.searchDepth n level s).wp (AskOk ir ir.useIdents) (AnsRef ir) (fun r =>
        (∀ e, r = .error e → e.fromLookup = true ∨ e = .noPubPath) ∧
        (∀ n, r = .ok n → ∃ m, Public ir m ∧ Below level m ∧ n.modulePath = pathString m ∧ NamesOk target n ∧
          Exports ir target.addr m n.importName) ∧
        (r = .error .noPubPath → ∃ S, (∀ id ∈ S, Lacks ir target ns S id) ∧ s ⊆ S ∧ ∀ m, Below level m → ∀ id mi vis items,
          m.getLast? = some (.module id mi vis items) → id ∈ S) ∧
        ∀ k, Clean ir k ns → target.ident ≠ none → ∀ e, r = .error e → e = .noPubPath) := by
  intro n
  induction n with
  | zero => intro _ _ _ _ h; exact absurd h (by omega)
  | succ n ih =>
    intro level s hpub hh _ hnd hsub hlacks
    rw [searchLevels]
    split
    · rename_i hemp
      have hemp : level = [] := by simpa using hemp
      subst hemp
      refine ⟨fun e h => by cases h; exact .inr rfl, nofun, ?_, fun _ _ _ e h => by cases h; rfl⟩
      refine fun _ => ⟨s, hlacks, fun _ h => h, ?_⟩
      intro m hm
      exfalso
      generalize hlv : ([] : List RPath) = lv at hm
      induction hm with
      | here h => subst hlv; cases h
      | next _ ih => subst hlv; exact ih rfl
    · rename_i hne
      refine wp_bind (wp_mono ?_ (searchLevel_wp hu hpt hlt hpub hnd hsub))
      rintro r ⟨a1, a2, a3, a4, a5, a6, a7⟩
      split
      · rename_i names s'
        refine ⟨nofun, ?_, nofun, fun _ _ _ _ => nofun⟩
        intro n hn
        cases hn
        obtain ⟨m, hm, h⟩ := a5 names rfl
        exact ⟨m, hpub m hm, .here hm, h⟩
      · rename_i s'
        have h6 := a6 rfl
        have hl' : ∀ id ∈ s', Lacks ir target ns s' id := by
          intro x hx
          rcases h6.2 x hx with h | h
          · exact lacks_mono (hlacks x h) a3
          · exact h
        have hpos : 0 < n := by
          match level, hne with
          | m :: _, _ =>
            obtain ⟨id, mi, vis, items, hml⟩ := public_module (hpub m (.head _))
            have h0 : 0 < RPath.height m := by
              unfold RPath.height
              rw [hml]
              dsimp only
              rw [Item.height.eq_def]
              dsimp only
              omega
            have := hh m (.head _)
            omega
        refine wp_mono ?_ (ih (level := level.flatMap pubModules) (s := s') ?_ ?_ hpos a1 a2 hl')
        · rintro r ⟨b1, b2, b3, b4⟩
          refine ⟨b1, ?_, ?_, b4⟩
          · intro n hn
            obtain ⟨m, h1, h2, h3⟩ := b2 n hn
            exact ⟨m, h1, .next h2, h3⟩
          · intro hr
            obtain ⟨S, h1, h2, h3⟩ := b3 hr
            refine ⟨S, h1, fun x hx => h2 (a3 hx), ?_⟩
            intro m hm id mi vis items hml
            cases hm with
            | here hm => exact h2 (h6.1 m hm id mi vis items hml)
            | next hm => exact h3 m hm id mi vis items hml
        · intro m hm
          obtain ⟨x, hx, hm⟩ := List.mem_flatMap.1 hm
          exact pubModules_public (hpub x hx) hm
        · intro m hm
          obtain ⟨x, hx, hm⟩ := List.mem_flatMap.1 hm
          have := pubModules_height hm
          have := hh x hx
          omega
      · refine ⟨fun e h => by cases h; exact .inl (a4 _ rfl), nofun, ?_,
          fun k hk hi e _ => absurd rfl (a7 k hk hi _)⟩
        intro h
        cases h
        exact nomatch a4 _ rfl

end Verif.Src
