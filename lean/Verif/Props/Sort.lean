import Verif.Gen.SortLemmas
/-
C45: declarations come out in dependency order.
-/
namespace Verif.Props.Sort
open Verif.Gen

/-- The sort always ends, and it returns, for each name among the items, the last item with that name,
exactly once. -/
theorem C45_complete {α : Type} (name : α → String) (deps : α → List String) (items : List α) :
    ∃ res, dependencySort name deps items = some res ∧
      (res.map name).Nodup ∧ (∀ n, n ∈ res.map name ↔ n ∈ items.map name) ∧
      ∀ x, x ∈ res ↔ ∃ pre post, items = pre ++ x :: post ∧ ∀ y ∈ post, name y ≠ name x := by
  obtain ⟨h1, h2, h3⟩ := collect_spec (name := name) items [] (by simp)
  obtain ⟨res, e, hp, _⟩ := sortLoop_spec (deps := deps) (collectItems name items) h1
    ((collectItems name items).length + 1) ((collectItems name items).length + 1)
    { unsorted := collectItems name items, sorted := [] }
    ⟨by simp, by simp⟩ (by simp) (by omega)
  refine ⟨res, e, (hp.map name).nodup h1, ?_, ?_⟩
  · intro n
    rw [← (hp.map name).mem_iff]
    have := h2 n
    simpa [collectItems] using this
  · intro x
    rw [← hp.mem_iff]
    have := h3 x
    simpa [collectItems] using this

/-- With different names nothing is lost or repeated: the result is a rearrangement of the items. -/
theorem C45_permutation {α : Type} (name : α → String) (deps : α → List String) (items : List α)
    (hn : (items.map name).Nodup) :
    ∃ res, dependencySort name deps items = some res ∧ List.Perm items res := by
  have hc : ∀ (items m : List α), (m.map name ++ items.map name).Nodup →
      items.foldl (fun m x => indexInsert name x m) m = m ++ items := by
    intro items
    induction items with
    | nil => intro m _; simp
    | cons i items ih =>
      intro m hm
      have hins : ∀ m : List α, name i ∉ m.map name → indexInsert name i m = m ++ [i] := by
        intro m
        induction m with
        | nil => intro _; rfl
        | cons y ys ihm =>
          intro h
          simp only [List.map_cons, List.mem_cons, not_or] at h
          unfold indexInsert
          rw [if_neg (fun e => h.1 e.symm), ihm h.2]; rfl
      have hni : name i ∉ m.map name := by
        intro h
        exact (List.nodup_append.1 hm).2.2 _ h _ (by simp) rfl
      rw [List.foldl_cons, hins m hni, ih (m ++ [i]) (by simpa using hm)]
      simp
  have hcol : collectItems name items = items := by
    have := hc items [] (by simpa using hn)
    simpa [collectItems] using this
  obtain ⟨res, e, hp, _⟩ := sortLoop_spec (deps := deps) (collectItems name items) (by rw [hcol]; exact hn)
    ((collectItems name items).length + 1) ((collectItems name items).length + 1)
    { unsorted := collectItems name items, sorted := [] }
    ⟨by simp, by simp⟩ (by simp) (by omega)
  rw [hcol] at hp
  exact ⟨res, e, hp⟩

/-- Every item comes after the items it depends on, except those that themselves need it. This also
holds when there are cycles elsewhere. -/
theorem C45_order {α : Type} (name : α → String) (deps : α → List String) (items res : List α)
    (h : dependencySort name deps items = some res) :
    ∀ pre x post, res = pre ++ x :: post → ∀ y ∈ res, name y ∈ deps x →
      ¬ Needs name deps res y x → y ∈ pre := by
  obtain ⟨h1, _, _⟩ := collect_spec (name := name) items [] (by simp)
  obtain ⟨res', e, hp, ho⟩ := sortLoop_spec (deps := deps) (collectItems name items) h1
    ((collectItems name items).length + 1) ((collectItems name items).length + 1)
    { unsorted := collectItems name items, sorted := [] }
    ⟨by simp, by simp⟩ (by simp) (by omega)
  have : res = res' := by
    unfold dependencySort at h; rw [e] at h; exact (Option.some.inj h).symm
  subst this
  intro pre x post he y hy hd hn
  refine (ho pre x post he y (hp.symm.subset hy) hd).resolve_right fun h => hn ?_
  clear hn hd he ho hy
  induction h with
  | direct hm hd => exact .direct (hp.subset hm) hd
  | through hm hd _ ih => exact .through (hp.subset hm) hd ih

/-- Without cycles: every item comes after all items it depends on, directly or through others. -/
theorem C45_acyclic {α : Type} (name : α → String) (deps : α → List String) (items res : List α)
    (h : dependencySort name deps items = some res)
    (hac : ∀ x ∈ res, ¬ Needs name deps res x x) :
    ∀ pre x post, res = pre ++ x :: post → ∀ y, Needs name deps res x y → y ∈ pre := by
  intro pre x post he y hy
  induction hy generalizing pre post with
  | @direct x y hm hd =>
    refine C45_order name deps items res h pre x post he y hm hd fun hn => ?_
    exact hac x (by rw [he]; simp) (Needs.through hm hd hn)
  | @through x y z hm hd hyz ih =>
    have hy : y ∈ pre := by
      refine C45_order name deps items res h pre x post he y hm hd fun hn => ?_
      exact hac x (by rw [he]; simp) (Needs.through hm hd hn)
    obtain ⟨p, q, rfl⟩ := List.append_of_mem hy
    have := ih p (q ++ x :: post) (by rw [he]; simp)
    simp [this]

/-- Items are a name with the names of the dependencies. `a` and `b` need each other, `d` needs `a`
and `c`. -/
example : dependencySort Prod.fst Prod.snd
      [("d", ["a", "c"]), ("a", ["b"]), ("b", ["a", "c"]), ("c", [])] =
    some [("c", []), ("b", ["a", "c"]), ("a", ["b"]), ("d", ["a", "c"])] := by
  decide

/-- An acyclic example. -/
example : dependencySort Prod.fst Prod.snd [("x", ["y", "z"]), ("y", ["z"]), ("z", ([] : List String))] =
    some [("z", []), ("y", ["z"]), ("x", ["y", "z"])] := by
  decide

end Verif.Props.Sort
