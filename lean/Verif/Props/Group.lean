import Verif.Meta.GroupLemmas
/-
C43: grouping metadata by crate.
-/
namespace Verif.Props.Group
open Verif.Meta

/-- C43: when the items of a library are grouped, the group of a crate holds exactly the items of
that crate, each as often as it was given, and carries the namespace declared last for the crate. A
crate without a group has no items. -/
theorem C43_partition (items : List Metadata) (m : GroupMap) (h : groups items = .ok m) (c : String) :
    match m.get c with
    | some g => g.items.Perm (itemsOf c items) ∧ g.crateName = c ∧
        (namespacesOf c items).getLast? = some g.namespace_
    | none => itemsOf c items = [] ∧ namespacesOf c items = [] := by
  have hg := groupMetadata_ok h c
  rw [createGroups_get] at hg
  cases hl : (namespacesOf c items).getLast? with
  | some n =>
    simp only [hl, Option.map_some] at hg
    rw [hg]
    exact ⟨by simpa using List.reverse_perm _, rfl, rfl⟩
  | none =>
    simp only [hl, Option.map_none] at hg
    rw [hg]
    refine ⟨?_, List.getLast?_eq_none_iff.mp hl⟩
    cases hi : itemsOf c items with
    | nil => rfl
    | cons i is =>
      exfalso
      have hmem : i ∈ itemsOf c items := by rw [hi]; simp
      unfold itemsOf at hmem
      obtain ⟨h1, h2⟩ := List.mem_filter.mp hmem
      simp only [Bool.and_eq_true, beq_iff_eq] at h2
      obtain ⟨-, hall⟩ := (groupMetadata_iff _ _).mp ⟨m, h⟩
      obtain ⟨c', g, h3, h4, -⟩ := hall i h1 h2.1
      rw [h2.2] at h3
      cases h3
      rw [createGroups_get, hl] at h4
      cases h4

/-- C43: no group holds an item twice. -/
theorem C43_no_duplicates (items : List Metadata) (m : GroupMap) (h : groups items = .ok m)
    (c : String) (g : Group) (hg : m.get c = some g) : g.items.Nodup := by
  have hp := C43_partition items m h c
  rw [hg] at hp
  obtain ⟨hnd, -⟩ := (groupMetadata_iff _ _).mp ⟨m, h⟩
  refine hp.1.nodup_iff.mpr ?_
  have e : itemsOf c items = (items.filter grouped).filter fun i => crateOf i == some c := by
    unfold itemsOf
    rw [List.filter_filter]
    congr 1
    funext i
    exact Bool.and_comm _ _
  rw [e]
  exact hnd.sublist List.filter_sublist

/-- C43: every item is in the group of its crate, and in no other. -/
theorem C43_everywhere_once (items : List Metadata) (m : GroupMap) (h : groups items = .ok m)
    (i : Metadata) (hi : i ∈ items) (hg : grouped i = true) :
    ∃ c g, crateOf i = some c ∧ m.get c = some g ∧ i ∈ g.items ∧
      ∀ c' g', m.get c' = some g' → i ∈ g'.items → c' = c := by
  obtain ⟨-, hall⟩ := (groupMetadata_iff _ _).mp ⟨m, h⟩
  obtain ⟨c, g0, h3, h4, -⟩ := hall i hi hg
  have hp := C43_partition items m h c
  have mem : ∀ c', i ∈ itemsOf c' items ↔ crateOf i = some c' := by
    intro c'
    simp [itemsOf, hi, hg]
  cases hgc : m.get c with
  | none =>
    rw [hgc] at hp
    have := (mem c).mpr h3
    rw [hp.1] at this
    cases this
  | some g =>
    rw [hgc] at hp
    refine ⟨c, g, h3, hgc, hp.1.mem_iff.mpr ((mem c).mpr h3), fun c' g' h5 h6 => ?_⟩
    have hp' := C43_partition items m h c'
    rw [h5] at hp'
    have := (mem c').mp (hp'.1.mem_iff.mp h6)
    rw [h3] at this
    exact (Option.some.inj this).symm

/-- C43: grouping succeeds iff no item is given twice and the crate of every item is declared. -/
theorem C43_accepts (items : List Metadata) :
    (∃ m, groups items = .ok m) ↔
      (items.filter grouped).Nodup ∧
      ∀ i ∈ items, grouped i = true → ∃ c, crateOf i = some c ∧ namespacesOf c items ≠ [] := by
  unfold groups
  rw [groupMetadata_iff]
  refine and_congr_right fun _ => ?_
  constructor
  · intro h i hi hg
    obtain ⟨c, g, h1, h2, -⟩ := h i hi hg
    refine ⟨c, h1, fun e => ?_⟩
    rw [createGroups_get, e] at h2
    cases h2
  · intro h i hi hg
    obtain ⟨c, h1, h2⟩ := h i hi hg
    have hl : (namespacesOf c items).getLast? = some ((namespacesOf c items).getLast h2) :=
      List.getLast?_eq_some_getLast h2
    exact ⟨c, { crateName := c, namespace_ := (namespacesOf c items).getLast h2, items := [] }, h1,
      by rw [createGroups_get, hl]; rfl, by simp⟩

/-- C43: what is not accepted is reported as an error; the only panic is for an `impl` of a type that
is not defined in any crate. -/
theorem C43_no_panic (items : List Metadata) (h : ∀ i ∈ items, i.modulePath ≠ none) :
    groups items ≠ .panic :=
  groupMetadata_no_panic _ _ h

/-! ### Examples -/

/-- A function of crate `m`. -/
def f (name path : String) : Metadata :=
  .func { modulePath := path, name := name, origName := none, isAsync := false, inputs := [],
          returnType := none, throws := none, checksum := none, docstring := none }

/-- Two crates, one of them with items in a nested module. -/
def twoCrates : List Metadata :=
  [f "x" "a", .namespace_ "a" "A", f "y" "b::inner", .udlFile "b" "B" "b.udl", f "z" "a"]

example : ∃ m, groups twoCrates = .ok m := by
  rw [C43_accepts]
  decide +kernel

example : itemsOf "b" twoCrates = [f "y" "b::inner", .udlFile "b" "B" "b.udl"] := by decide +kernel

/-- A repeated item is refused. -/
example : groups [.namespace_ "a" "A", f "x" "a", f "x" "a"] = .err := by rfl

/-- An item of an unknown crate is refused. -/
example : groups [.namespace_ "a" "A", f "x" "b"] = .err := by rfl

end Verif.Props.Group
