import Verif.Src.Syntax
/-
Use statements: uniffi_parse_rs/src/use_.rs.
-/
namespace Verif.Src

/-- `syn::UseTree`. -/
inductive UseTree where
  | path (ident : Ident) (tree : UseTree)
  | name (ident : Ident)
  | rename (ident rename : Ident)
  | glob
  | group (trees : List UseTree)

/-- `UseItem` and `UseGlob` without the visibility: use_.rs:10-24. -/
inductive Import where
  | item (path : List Ident) (ident : Ident)
  | glob (path : List Ident)
  deriving DecidableEq, Repr

mutual
/-- `parse_use_recurse`: use_.rs:36-96. The `while` loop over `UseTree::Path` is written as recursion.
`none` is the error `SelfInvalid`. The leading colon of the path and the visibility are the same for all
imports of a statement and are left out. -/
def parseUse (current : List Ident) : UseTree → Option (List Import)
  | .path ident tree => parseUse (current ++ [ident]) tree
  | .name ident =>
    if ident = ⟨false, "self"⟩ then
      match current.getLast? with
      | some seg => some [.item current seg]
      | none => none
    else some [.item (current ++ [ident]) ident]
  | .rename ident rename => some [.item (current ++ [ident]) rename]
  | .glob => some [.glob current]
  | .group trees => parseUses current trees
/-- The loop over a group: use_.rs:88-92. -/
def parseUses (current : List Ident) : List UseTree → Option (List Import)
  | [] => some []
  | t :: ts =>
    match parseUse current t with
    | none => none
    | some is =>
      match parseUses current ts with
      | none => none
      | some js => some (is ++ js)
end

/-- What a use tree imports: the paths from its root to its leaves. A leaf `self` stands for the path
before it. -/
inductive Leaf : UseTree → List Ident → Import → Prop
  | path {ident tree pre i} : Leaf tree (pre ++ [ident]) i → Leaf (.path ident tree) pre i
  | name {ident pre} : ident ≠ ⟨false, "self"⟩ → Leaf (.name ident) pre (.item (pre ++ [ident]) ident)
  | self {pre seg} : Leaf (.name ⟨false, "self"⟩) (pre ++ [seg]) (.item (pre ++ [seg]) seg)
  | rename {ident r pre} : ident ≠ ⟨false, "self"⟩ → Leaf (.rename ident r) pre (.item (pre ++ [ident]) r)
  | renameSelf {r pre} : Leaf (.rename ⟨false, "self"⟩ r) pre (.item pre r)
  | glob {pre} : Leaf .glob pre (.glob pre)
  | group {trees t pre i} : t ∈ trees → Leaf t pre i → Leaf (.group trees) pre i

mutual
/-- The tree renames no `self`. -/
def UseTree.noRenamedSelf : UseTree → Bool
  | .path _ tree => tree.noRenamedSelf
  | .rename ident _ => ident != ⟨false, "self"⟩
  | .group trees => noRenamedSelfs trees
  | _ => true
def noRenamedSelfs : List UseTree → Bool
  | [] => true
  | t :: ts => t.noRenamedSelf && noRenamedSelfs ts
end

mutual
theorem parseUse_mem {i : Import} : ∀ {t : UseTree} {pre is}, t.noRenamedSelf = true → parseUse pre t = some is →
    (i ∈ is ↔ Leaf t pre i)
  | .path ident tree, pre, is, hn, h => by
    rw [parseUse] at h
    rw [UseTree.noRenamedSelf] at hn
    rw [parseUse_mem hn h]
    exact ⟨.path, fun h => by cases h; assumption⟩
  | .name ident, pre, is, _, h => by
    rw [parseUse] at h
    split at h
    · rename_i hid; subst hid
      split at h
      · rename_i seg hseg
        cases h
        obtain ⟨ys, rfl⟩ := List.getLast?_eq_some_iff.1 hseg
        simp only [List.mem_singleton]
        constructor
        · rintro rfl; exact .self
        · intro h
          generalize hpre : ys ++ [seg] = pre at h
          cases h with
          | name h => exact absurd rfl h
          | self =>
            have := List.append_inj' hpre rfl
            cases this.2; cases this.1; rfl
      · exact nomatch h
    · rename_i hid
      cases h
      simp only [List.mem_singleton]
      constructor
      · rintro rfl; exact .name hid
      · intro h
        cases h with
        | name _ => rfl
        | self => exact absurd rfl hid
  | .rename ident r, pre, is, hn, h => by
    rw [parseUse] at h
    cases h
    have hid : ident ≠ ⟨false, "self"⟩ := by simpa [UseTree.noRenamedSelf] using hn
    simp only [List.mem_singleton]
    constructor
    · rintro rfl; exact .rename hid
    · intro h
      cases h with
      | rename _ => rfl
      | renameSelf => exact absurd rfl hid
  | .glob, pre, is, _, h => by
    rw [parseUse] at h
    cases h
    simp only [List.mem_singleton]
    exact ⟨fun h => h ▸ .glob, fun h => by cases h; rfl⟩
  | .group trees, pre, is, hn, h => by
    rw [parseUse] at h
    rw [UseTree.noRenamedSelf] at hn
    rw [parseUses_mem hn h]
    exact ⟨fun ⟨t, ht, h⟩ => .group ht h, fun h => by cases h with | group ht h => exact ⟨_, ht, h⟩⟩
theorem parseUses_mem {i : Import} : ∀ {ts : List UseTree} {pre is}, noRenamedSelfs ts = true →
    parseUses pre ts = some is → (i ∈ is ↔ ∃ t ∈ ts, Leaf t pre i)
  | [], pre, is, _, h => by
    rw [parseUses] at h
    cases h
    simp
  | t :: ts, pre, is, hn, h => by
    rw [parseUses] at h
    rw [noRenamedSelfs, Bool.and_eq_true] at hn
    cases h1 : parseUse pre t with
    | none => rw [h1] at h; exact nomatch h
    | some as =>
      cases h2 : parseUses pre ts with
      | none => rw [h1, h2] at h; exact nomatch h
      | some bs =>
        rw [h1, h2] at h
        cases h
        rw [List.mem_append, parseUse_mem hn.1 h1, parseUses_mem hn.2 h2]
        simp
end

mutual
/-- Where a `self` stands alone, without a path before it. -/
theorem parseUse_none : ∀ {t : UseTree} {pre}, pre ≠ [] → parseUse pre t ≠ none
  | .path ident tree, pre, _ => by rw [parseUse]; exact parseUse_none (by simp)
  | .name ident, pre, h => by
    rw [parseUse]
    split
    · split
      · exact nofun
      · rename_i hn; exact absurd (List.getLast?_eq_none_iff.1 hn) h
    · exact nofun
  | .rename _ _, _, _ => by rw [parseUse]; exact nofun
  | .glob, _, _ => by rw [parseUse]; exact nofun
  | .group trees, pre, h => by rw [parseUse]; exact parseUses_none h
theorem parseUses_none : ∀ {ts : List UseTree} {pre}, pre ≠ [] → parseUses pre ts ≠ none
  | [], _, _ => by rw [parseUses]; exact nofun
  | t :: ts, pre, h => by
    rw [parseUses]
    split
    · rename_i h1; exact absurd h1 (parseUse_none h)
    · split
      · rename_i h1; exact absurd h1 (parseUses_none h)
      · exact nofun
end

end Verif.Src
