import Verif.Src.TypesEnds
/-
Checks for the conditions of the theorems about types. Used for examples.
-/
namespace Verif.Src
open Verif.Meta

variable {ir : Ir}

/-- The name of an item. -/
def Item.lastName : Item → Option String
  | .udl _ ty => udlName ty
  | i => i.ident.map Ident.name

/-- A module or builtin item. -/
def Item.isModule : Item → Bool
  | .module _ _ _ _ => true
  | .builtin _ => true
  | _ => false

/-- No import changes a name. -/
def Item.keepsName : Item → Bool
  | .useItem _ _ path ident => path.segs.getLast?.map Ident.name == some ident.name
  | _ => true

def Ir.KeepsNames (ir : Ir) : Prop := ∀ p i, Canon ir p → p.getLast? = some i → i.keepsName = true

/-- Why `y` may stand for the item at `q`. -/
def NameOk (ir : Ir) (y : String) (q : RPath) : Prop :=
  ∀ i, q.getLast? = some i → i.lastName = some y ∨
    ((y = "super" ∨ y = "crate" ∨ ∃ r ∈ ir.roots, r.1.name = y) ∧ i.isModule = true) ∨
    ∃ segs b, i = .builtin b ∧ (segs, b) ∈ builtins ∧ segs.getLast? = some y

theorem root_name {crate m} (h : ir.root crate = some m) : ∃ r ∈ ir.roots, r.1.name = crate.name := by
  obtain ⟨e, he, rfl⟩ := Option.map_eq_some_iff.1 h
  have := List.find?_some he
  exact ⟨e, List.mem_of_find?_eq_some he, by rw [eq_of_beq this]⟩

theorem getLast?_cons {α : Type} {a : α} {l : List α} (h : l ≠ []) : (a :: l).getLast? = l.getLast? := by
  cases l with
  | nil => exact absurd rfl h
  | cons b l => rw [List.getLast?_cons_cons]

theorem denotes_name (hr : ir.RootsModules) (hk : ir.KeepsNames) {p path ns q} (h : Denotes ir p path ns q) :
    Canon ir p → Canon ir q ∧ ∀ y, path.segs.getLast? = some y → NameOk ir y.name q := by
  refine Denotes.rec (ir := ir)
    (motive_1 := fun p ident ns q _ => Canon ir p → Canon ir q ∧ NameOk ir ident.name q)
    (motive_2 := fun p segs ns q _ => Canon ir p → Canon ir q ∧ ∀ y, segs.getLast? = some y → NameOk ir y.name q)
    (motive_3 := fun p path ns q _ => Canon ir p → Canon ir q ∧ ∀ y, path.segs.getLast? = some y → NameOk ir y.name q)
    ?_ ?_ ?_ ?_ ?_ ?_ ?_ ?_ ?_ ?_ ?_ ?_ ?_ h
  · intro p ns hl hp
    obtain ⟨q, id, mi, vis, items, i, rfl, hq, hm, _⟩ := canon_inv hp hl
    rw [List.dropLast_concat]
    refine ⟨hq, fun j hj => .inr (.inl ⟨.inl rfl, ?_⟩)⟩
    rw [hm] at hj; cases hj; rfl
  · intro root p ns hp
    refine ⟨canon_root hp, fun j hj => ?_⟩
    cases hj
    refine .inr (.inl ⟨.inr (.inl rfl), ?_⟩)
    have h := canon_root hp
    rw [List.getLast_singleton]
    generalize hx : [root] = x at h
    cases h with
    | root h => cases hx; obtain ⟨_, _, _, _, rfl⟩ := hr _ _ h; rfl
    | builtin b => cases hx; rfl
    | @item q _ _ _ _ i h h1 h2 =>
      cases q with
      | nil => exact nomatch h1
      | cons _ as => cases as <;> exact nomatch hx
  · intro p ident ns id mi vis items i hl hi hnr hid hm hp
    refine ⟨.item hp hl hi, fun j hj => .inl ?_⟩
    rw [List.getLast?_concat] at hj
    cases hj
    cases i <;> simp_all [Item.lastName, Item.ident, Ident.unraw]
  · intro p ident ns id mi vis items uid ty hl hi hn _ hp
    refine ⟨.item hp hl hi, fun j hj => .inl ?_⟩
    rw [List.getLast?_concat] at hj
    cases hj
    exact hn
  · intro p ident ns id mi vis items uid uvis path q hl hi _ _ ih hp
    have := ih hp
    refine ⟨this.1, ?_⟩
    have hk := hk _ _ (.item hp hl hi) (List.getLast?_concat)
    rw [Item.keepsName] at hk
    have hk := eq_of_beq hk
    cases hlast : path.segs.getLast? with
    | none => rw [hlast] at hk; exact nomatch hk
    | some y =>
      rw [hlast] at hk
      have hy : y.name = ident.name := by simpa [Ident.unraw] using hk
      rw [← hy]
      exact this.2 y hlast
  · intro p ident ns id mi vis items uid uvis path q hl hi _ ih hp
    have := ih hp
    exact ⟨this.1, this.2 ident.unraw (List.getLast?_concat)⟩
  · intro p ident ns id mi vis items uid path q hl hi hlast _ ih hp
    have := ih hp
    refine ⟨this.1, ?_⟩
    cases hl' : path.segs.getLast? with
    | none => rw [hl'] at hlast; exact nomatch hlast
    | some y =>
      rw [hl'] at hlast
      have hy : y.name = ident.name := by simpa [Ident.unraw] using hlast
      rw [← hy]
      exact this.2 y hl'
  · intro p ns hp
    exact ⟨hp, nofun⟩
  · intro p seg rest ns q r _ hw ih1 ih2 hp
    have h1 := ih1 hp
    have h2 := ih2 h1.1
    refine ⟨h2.1, fun y hy => ?_⟩
    by_cases hrest : rest = []
    · subst hrest
      cases hw
      cases hy
      exact h1.2
    · rw [getLast?_cons hrest] at hy
      exact h2.2 y hy
  · intro p segs ns q _ _ ih hp
    exact ih hp
  · intro root rest leading ident ns id mi vis items uid ty hroot hi hn hp
    refine ⟨?_, fun y hy i hi => ?_⟩
    · subst hroot
      exact .item (canon_root hp) (p := [_]) rfl hi
    · cases hy; cases hi
      exact .inl hn
  · intro p leading crate rest root ns q hroot hw ih hp
    have := ih (.root hroot)
    refine ⟨this.1, fun y hy => ?_⟩
    by_cases hrest : rest = []
    · subst hrest
      cases hw
      cases hy
      intro i hi
      cases hi
      obtain ⟨_, _, _, _, rfl⟩ := hr _ _ hroot
      exact .inr (.inl ⟨.inr (.inr (root_name hroot)), rfl⟩)
    · rw [getLast?_cons hrest] at hy
      exact this.2 y hy
  · intro p leading segs ns b hb hp
    refine ⟨.builtin b, fun y hy i hi => ?_⟩
    cases hi
    refine .inr (.inr ⟨_, b, rfl, hb, ?_⟩)
    rw [List.getLast?_map, hy]; rfl

/-! ### The names of parameters -/

/-- Nothing in the program has this name. -/
def Ir.unknown (ir : Ir) (x : String) : Bool :=
  ir.places.all (fun p => match p.getLast? with
    | some i => i.lastName != some x
    | none => true) &&
  ir.roots.all (fun r => r.1.name != x) && builtins.all (fun b => b.1.getLast? != some x) &&
  x != "super" && x != "crate"

theorem lastName_builtin {b : Builtin} : (Item.builtin b).lastName = none := rfl

theorem unknown_denotes (hr : ir.RootsModules) (hk : ir.KeepsNames) {p : RPath} (hp : Canon ir p) {x : Ident}
    (hx : ir.unknown x.name = true) {r} : ¬ Denotes ir p ⟨false, [x]⟩ .type r := by
  intro hd
  obtain ⟨hq, hn⟩ := denotes_name hr hk hd hp
  simp only [Ir.unknown, Bool.and_eq_true, List.all_eq_true, bne_iff_ne, ne_eq] at hx
  obtain ⟨⟨⟨⟨h1, h2⟩, h3⟩, h4⟩, h5⟩ := hx
  cases hl : r.getLast? with
  | none => exact absurd (List.getLast?_eq_none_iff.1 hl) (canon_ne hq)
  | some i =>
    rcases hn x rfl i hl with h | ⟨h, _⟩ | ⟨segs, b, rfl, hb, h⟩
    · rcases canon_places hq with hp | ⟨b, rfl⟩
      · have := h1 r hp
        rw [hl] at this
        simp at this
        exact this h
      · cases hl; exact nomatch h
    · rcases h with h | h | ⟨r, hr, h⟩
      · exact h4 h
      · exact h5 h
      · exact h2 r hr h
    · exact h3 _ hb h

/-- No import changes a name, and the names of type parameters are not used for anything else. -/
def Ir.paramsCheck (ir : Ir) : Bool :=
  ir.places.all fun p => match p.getLast? with
    | some (.decl _ (.alias ps _) _ _ _ _) => ps.all fun x => ir.unknown x.1.name
    | _ => true

def Ir.keepsCheck (ir : Ir) : Bool :=
  ir.places.all fun p => match p.getLast? with
    | some i => i.keepsName
    | none => true

theorem keeps_of_check (h : ir.keepsCheck = true) : ir.KeepsNames := by
  intro p i hp hl
  rcases canon_places hp with hp | ⟨b, rfl⟩
  · have := List.all_eq_true.1 h p hp
    rw [hl] at this
    exact this
  · cases hl; rfl

theorem occurs_canon (hr : ir.RootsModules) (hk : ir.KeepsNames) {p ty p' ty'} (h : Occurs ir p ty p' ty') :
    Canon ir p → Canon ir p' := by
  have parent : ∀ {q : RPath} {i p path}, Denotes ir p path .type (q ++ [i]) → (∀ b, i ≠ .builtin b) → i.isModule = false →
      Canon ir p → Canon ir q := by
    intro q i p path hd hb hm hp
    have := (denotes_name hr hk hd hp).1
    generalize hx : q ++ [i] = x at this
    cases this with
    | root h =>
      obtain ⟨_, _, _, _, rfl⟩ := hr _ _ h
      cases q with
      | nil => cases hx; exact nomatch hm
      | cons _ as => cases as <;> exact nomatch hx
    | builtin b =>
      cases q with
      | nil => cases hx; exact absurd rfl (hb b)
      | cons _ as => cases as <;> exact nomatch hx
    | item h _ _ =>
      have := List.append_inj' hx rfl
      rw [this.1]; exact h
  induction h with
  | here => exact fun h => h
  | reference _ ih => exact ih
  | slice _ ih => exact ih
  | arg _ _ ih => exact ih
  | alias hd _ ih => exact fun hp => ih (parent hd nofun rfl hp)
  | default hd _ _ ih => exact fun hp => ih (parent hd nofun rfl hp)
  | custom hd _ ih => exact fun hp => ih (parent hd nofun rfl hp)

theorem canon_alias {q : RPath} {i} (hr : ir.RootsModules) (h : Canon ir (q ++ [i])) (hb : ∀ b, i ≠ .builtin b)
    (hm : i.isModule = false) : Canon ir q := by
  generalize hx : q ++ [i] = x at h
  cases h with
  | root h =>
    obtain ⟨_, _, _, _, rfl⟩ := hr _ _ h
    cases q with
    | nil => cases hx; exact nomatch hm
    | cons _ as => cases as <;> exact nomatch hx
  | builtin b =>
    cases q with
    | nil => cases hx; exact absurd rfl (hb b)
    | cons _ as => cases as <;> exact nomatch hx
  | item h _ _ =>
    have := List.append_inj' hx rfl
    rw [this.1]; exact h

theorem params_of_check (hr : ir.RootsModules) (hk : ir.KeepsNames) (h : ir.paramsCheck = true) {p ty} (hp : Canon ir p) :
    ParamsFresh ir p ty := by
  intro p' path args q id ps target ident vis attr remote ho hd x d hx r
  have hc := (denotes_name hr hk hd (occurs_canon hr hk ho hp)).1
  rcases canon_places hc with hpl | ⟨b, hb⟩
  · have := List.all_eq_true.1 h _ hpl
    rw [List.getLast?_concat] at this
    exact unknown_denotes hr hk (canon_alias hr hc nofun rfl) (List.all_eq_true.1 this _ hx)
  · cases q with
    | nil => exact nomatch hb
    | cons _ as => cases as <;> exact nomatch hb

/-! ### Traits -/

/-- There is one crate, and no trait is renamed. -/
def Ir.traitsCheck (ir : Ir) : Bool :=
  ir.roots.length == 1 && ir.places.all fun p => match p.getLast? with
    | some (.decl _ (.trait _) _ _ attr _) => attr.isNone
    | _ => true

theorem canon_head {p : RPath} (h : Canon ir p) : (∃ b, p = [.builtin b]) ∨ ∃ r ∈ ir.roots, p.head? = some r.2 := by
  induction h with
  | root h =>
    obtain ⟨r, hr, rfl⟩ := List.mem_map.1 (root_mem h)
    exact .inr ⟨r, hr, rfl⟩
  | builtin b => exact .inl ⟨b, rfl⟩
  | @item p _ _ _ _ _ _ hl _ ih =>
    rcases ih with ⟨b, rfl⟩ | ⟨r, hr, h⟩
    · exact nomatch hl
    · refine .inr ⟨r, hr, ?_⟩
      cases p with
      | nil => exact nomatch h
      | cons => exact h

theorem traits_of_check (hr : ir.RootsModules) (hk : ir.KeepsNames) (h : ir.traitsCheck = true) {p ty} (hp : Canon ir p)
    (hl : ∃ id mi vis items, p.getLast? = some (.module id mi vis items)) : TraitsLocal ir p ty := by
  rw [Ir.traitsCheck, Bool.and_eq_true, List.all_eq_true] at h
  obtain ⟨h1, h2⟩ := h
  have h1 : ir.roots.length = 1 := eq_of_beq h1
  obtain ⟨r0, hr0⟩ : ∃ r, ir.roots = [r] := by
    match hx : ir.roots, h1 with
    | [r], _ => exact ⟨r, rfl⟩
  intro p' path q id exportTy ident vis attr remote ho hd hlast
  have hp' := occurs_canon hr hk ho hp
  have hq := (denotes_name hr hk hd hp').1
  have hplace : ∀ {p' : RPath}, Canon ir p' → (∀ b, p' ≠ [.builtin b]) → p'.head? = some r0.2 := by
    intro p' hp' hb
    rcases canon_head hp' with ⟨b, hb'⟩ | ⟨r, hr, h⟩
    · exact absurd hb' (hb b)
    · rw [hr0] at hr; cases List.mem_singleton.1 hr; exact h
  constructor
  · rw [hplace hq (by rintro b rfl; exact nomatch hlast), hplace hp' ?_]
    rintro b rfl
    -- a builtin item is not a place where types are written
    have : ∀ {p ty p' ty'}, Occurs ir p ty p' ty' → Canon ir p → (∃ id mi vis items, p.getLast? = some (.module id mi vis items)) →
        ∃ id mi vis items, p'.getLast? = some (.module id mi vis items) := by
      intro p ty p' ty' ho
      have parent : ∀ {q : RPath} {id k ident vis attr remote p path},
          Denotes ir p path .type (q ++ [.decl id k ident vis attr remote]) → Canon ir p →
          Canon ir q ∧ ∃ id mi vis items, q.getLast? = some (.module id mi vis items) := by
        intro q id k ident vis attr remote p path hd hp
        obtain ⟨q', _, _, _, _, he, hq', hm⟩ := canon_decl hr (denotes_name hr hk hd hp).1 (List.getLast?_concat)
        have := (List.append_inj' he rfl).1
        subst this
        exact ⟨hq', _, _, _, _, hm⟩
      induction ho with
      | here => exact fun _ h => h
      | reference _ ih => exact ih
      | slice _ ih => exact ih
      | arg _ _ ih => exact ih
      | alias hd _ ih => exact fun hp _ => ih (parent hd hp).1 (parent hd hp).2
      | default hd _ _ ih => exact fun hp _ => ih (parent hd hp).1 (parent hd hp).2
      | custom hd _ ih => exact fun hp _ => ih (parent hd hp).1 (parent hd hp).2
    obtain ⟨_, _, _, _, h⟩ := this ho hp hl
    exact nomatch h
  · rcases canon_places hq with hpl | ⟨b, rfl⟩
    · have := h2 _ hpl
      rw [hlast] at this
      simpa using this
    · exact nomatch hlast

/-! ### Ranks -/

mutual
/-- The names at the ends of the paths in a type. -/
def Ty.names : Ty → List String
  | .path p args => (p.segs.getLast?.map Ident.name).toList ++ tysNames args
  | .reference _ t => t.names
  | .slice t => t.names
  | _ => []
def tysNames : List Ty → List String
  | [] => []
  | t :: ts => t.names ++ tysNames ts
end

/-- The name at the head of a type. -/
def Ty.headNames : Ty → List String
  | .path p _ => (p.segs.getLast?.map Ident.name).toList
  | .reference _ t => t.headNames
  | .slice t => t.headNames
  | _ => []

/-- The names in the arguments. -/
def Ty.argNames : Ty → List String
  | .path _ args => tysNames args
  | .reference _ t => t.argNames
  | .slice t => t.argNames
  | _ => []

theorem tysNames_mem {arg : Ty} : ∀ {args : List Ty}, arg ∈ args → ∀ n ∈ arg.names, n ∈ tysNames args
  | _ :: _, .head _, n, h => by rw [tysNames]; exact List.mem_append_left _ h
  | _ :: _, .tail _ hm, n, h => by rw [tysNames]; exact List.mem_append_right _ (tysNames_mem hm n h)

theorem within_names {path : Path} {ty : Ty} (h : Within path ty) {y} (hy : path.segs.getLast? = some y) :
    y.name ∈ ty.names := by
  induction h with
  | here => rw [Ty.names]; exact List.mem_append_left _ (by rw [hy]; exact .head _)
  | arg h _ ih => rw [Ty.names]; exact List.mem_append_right _ (tysNames_mem h _ ih)
  | reference _ ih => rw [Ty.names]; exact ih
  | slice _ ih => rw [Ty.names]; exact ih

theorem head_names {path : Path} {ty : Ty} (h : Head path ty) {y} (hy : path.segs.getLast? = some y) :
    y.name ∈ ty.headNames := by
  induction h with
  | path => rw [Ty.headNames, hy]; exact .head _
  | reference _ ih => rw [Ty.headNames]; exact ih
  | slice _ ih => rw [Ty.headNames]; exact ih

theorem inArg_names {path : Path} {ty : Ty} (h : InArg path ty) {y} (hy : path.segs.getLast? = some y) :
    y.name ∈ ty.argNames := by
  induction h with
  | arg h hw => rw [Ty.argNames]; exact tysNames_mem h _ (within_names hw hy)
  | reference _ ih => rw [Ty.argNames]; exact ih
  | slice _ ih => rw [Ty.argNames]; exact ih

/-- The rank of the item with a name. -/
def rankOf (f : String → Nat) (p : RPath) : Nat :=
  match p.getLast? with
  | some (.decl _ _ ident _ _ _) => f ident.name
  | _ => 0

def Ir.rankCheck (ir : Ir) (f : String → Nat) : Bool :=
  ir.places.all fun p => match p.getLast? with
    | some (.decl _ (.alias ps target) ident _ _ _) =>
      target.headNames.all (fun n => f n ≤ f ident.name) && target.argNames.all (fun n => f n < f ident.name) &&
      ps.all (fun x => match x.2 with
        | some d => d.names.all fun n => f n < f ident.name
        | none => true) && decide (0 < f ident.name)
    | some (.decl _ (.custom b) ident _ _ _) =>
      b.names.all (fun n => f n < f ident.name) && decide (0 < f ident.name)
    | _ => true

theorem rank_denotes (hr : ir.RootsModules) (hk : ir.KeepsNames) {f : String → Nat} {p path r} (hd : Denotes ir p path .type r)
    (hp : Canon ir p) : rankOf f r = 0 ∨ ∃ y, path.segs.getLast? = some y ∧ rankOf f r = f y.name := by
  have := denotes_name hr hk hd hp
  unfold rankOf
  split
  · rename_i id k ident vis attr remote hl
    cases hy : path.segs.getLast? with
    | none =>
      have hs := List.getLast?_eq_none_iff.1 hy
      cases hd <;> simp_all
    | some y =>
      rcases this.2 y hy _ hl with h | ⟨_, h⟩ | ⟨_, _, h, _⟩
      · have : ident.name = y.name := by simpa [Item.lastName, Item.ident, Ident.unraw] using h
        exact .inr ⟨y, rfl, by rw [this]⟩
      · exact nomatch h
      · exact nomatch h
  · exact .inl rfl

theorem ranked_of_check (hr : ir.RootsModules) (hk : ir.KeepsNames) {f : String → Nat} {bound : Nat} (hb : ∀ n, f n < bound)
    (h : ir.rankCheck f = true) : Ranked ir (rankOf f) bound := by
  have place : ∀ {q : RPath} {id k ident vis attr remote}, Canon ir (q ++ [.decl id k ident vis attr remote]) →
      q ++ [.decl id k ident vis attr remote] ∈ ir.places ∧ Canon ir q := by
    intro q id k ident vis attr remote hc
    refine ⟨?_, canon_alias hr hc nofun rfl⟩
    rcases canon_places hc with hpl | ⟨b, hb⟩
    · exact hpl
    · cases q with
      | nil => exact nomatch hb
      | cons _ as => cases as <;> exact nomatch hb
  have self : ∀ {q : RPath} {id k ident vis attr remote},
      rankOf f (q ++ [.decl id k ident vis attr remote]) = f ident.name := by
    intro q id k ident vis attr remote
    unfold rankOf
    rw [List.getLast?_concat]
  have chk := fun {q : RPath} (hq : q ∈ ir.places) => List.all_eq_true.1 h q hq
  constructor
  · intro r
    unfold rankOf
    split
    · exact hb _
    · exact Nat.lt_of_le_of_lt (Nat.zero_le _) (hb "")
  · intro q id ps target ident vis attr remote path r hc hh hd
    have := chk (place hc).1
    rw [List.getLast?_concat] at this
    simp only [Bool.and_eq_true, List.all_eq_true, decide_eq_true_eq] at this
    rw [self]
    rcases rank_denotes (f := f) hr hk hd (place hc).2 with h | ⟨y, hy, h⟩ <;> rw [h]
    · omega
    · exact this.1.1.1 _ (head_names hh hy)
  · intro q id ps target ident vis attr remote path r hc hh hd
    have := chk (place hc).1
    rw [List.getLast?_concat] at this
    simp only [Bool.and_eq_true, List.all_eq_true, decide_eq_true_eq] at this
    rw [self]
    rcases rank_denotes (f := f) hr hk hd (place hc).2 with h | ⟨y, hy, h⟩ <;> rw [h]
    · omega
    · exact this.1.1.2 _ (inArg_names hh hy)
  · intro q id ps target ident vis attr remote x d path r hc hx hh hd
    have := chk (place hc).1
    rw [List.getLast?_concat] at this
    simp only [Bool.and_eq_true, List.all_eq_true, decide_eq_true_eq] at this
    rw [self]
    rcases rank_denotes (f := f) hr hk hd (place hc).2 with h | ⟨y, hy, h⟩ <;> rw [h]
    · omega
    · have := this.1.2 _ hx
      simp only [List.all_eq_true, decide_eq_true_eq] at this
      exact this _ (within_names hh hy)
  · intro q id b ident vis attr remote path r hc hh hd
    have := chk (place hc).1
    rw [List.getLast?_concat] at this
    simp only [Bool.and_eq_true, List.all_eq_true, decide_eq_true_eq] at this
    rw [self]
    rcases rank_denotes (f := f) hr hk hd (place hc).2 with h | ⟨y, hy, h⟩ <;> rw [h]
    · omega
    · exact this.1 _ (within_names hh hy)

end Verif.Src
