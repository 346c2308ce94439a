import Verif.Gen.RecursiveLemmas
/-
C46: recursive types. Both generators use the same search. The hash order is the order of the
definitions and of their fields, so each theorem holds for every order.
-/
namespace Verif.Props.Recursive
open Verif.Gen Verif.Meta

/-- The search ends, for every set of definitions: it marks some of them. -/
theorem C46_terminates (defs : List (String × List MTy)) :
    ∃ marks, inferRecursive defs = some marks ∧ marks.map Prod.fst = defs.map Prod.fst := by
  obtain ⟨r, _, e, _⟩ := findRecursive_spec (typeDepGraph defs)
  exact ⟨_, by rw [inferRecursive, e]; rfl, by simp⟩

/-- Every type that is marked can contain itself. -/
theorem C46_marked_is_recursive (defs : List (String × List MTy)) (hn : (defs.map Prod.fst).Nodup)
    (marks : List (String × Bool)) (h : inferRecursive defs = some marks) (n : String)
    (hm : (n, true) ∈ marks) : Way (Edge defs) n n := by
  obtain ⟨r, visited, e, hinv, _⟩ := findRecursive_spec (typeDepGraph defs)
  rw [inferRecursive, e] at h
  simp only [Option.map_some, Option.some.injEq] at h
  subst h
  simp only [List.mem_map, Prod.mk.injEq, decide_eq_true_eq] at hm
  obtain ⟨d, _, rfl, hr⟩ := hm
  have := hinv.sound d.1 hr
  have conv : ∀ a b, Way (GEdge (typeDepGraph defs)) a b → Way (Edge defs) a b := by
    intro a b hw
    induction hw with
    | one h => exact .one ((depsGet_typeDepGraph defs hn _ _).1 h)
    | more h _ ih => exact .more ((depsGet_typeDepGraph defs hn _ _).1 h) ih
  exact conv _ _ this

/-- Every cycle of types has at least one member that is marked: when the marked types are stored
indirectly, every type has a finite size.
What is missing from C46: that *every* member of a cycle is marked; see `C46_missed`. -/
theorem C46_cycle_broken_partial (defs : List (String × List MTy)) (hn : (defs.map Prod.fst).Nodup)
    (marks : List (String × Bool)) (h : inferRecursive defs = some marks) (cycle : List String)
    (hc : Cycle (Edge defs) cycle) : ∃ n ∈ cycle, (n, true) ∈ marks := by
  obtain ⟨r, visited, e, hinv, hall⟩ := findRecursive_spec (typeDepGraph defs)
  rw [inferRecursive, e] at h
  simp only [Option.map_some, Option.some.injEq] at h
  subst h
  have conv : Cycle (GEdge (typeDepGraph defs)) cycle := by
    have : GEdge (typeDepGraph defs) = Edge defs := by
      funext a b; exact propext (depsGet_typeDepGraph defs hn a b)
    rw [this]; exact hc
  obtain ⟨v, hv, hr⟩ := cycle_marked hinv hall conv
  refine ⟨v, hv, ?_⟩
  obtain ⟨y, _, fs, hd, _⟩ := hc.next v hv
  exact List.mem_map.2 ⟨(v, fs), hd, by simp [hr]⟩

/-- A type that stores itself directly is marked. -/
theorem C46_self (defs : List (String × List MTy)) (hn : (defs.map Prod.fst).Nodup)
    (marks : List (String × Bool)) (h : inferRecursive defs = some marks) (n : String)
    (hself : Edge defs n n) : (n, true) ∈ marks := by
  obtain ⟨m, hm, h'⟩ := C46_cycle_broken_partial defs hn marks h [n] ⟨n, [], rfl, hself, trivial⟩
  rwa [List.mem_singleton.1 hm] at h'

/-- Types that store no type that can contain itself are not marked: in an interface without cycles
nothing is. -/
theorem C46_acyclic (defs : List (String × List MTy)) (hn : (defs.map Prod.fst).Nodup)
    (marks : List (String × Bool)) (h : inferRecursive defs = some marks)
    (hac : ∀ n, ¬ Way (Edge defs) n n) : ∀ m ∈ marks, m.2 = false := by
  rintro ⟨n, b⟩ hm
  cases b with
  | false => rfl
  | true => exact absurd (C46_marked_is_recursive defs hn marks h n hm) (hac n)

/-- Two fields, of records. -/
private def rec' (n : String) : MTy := .sequence (.record "m" n)

/-- `A { b: Vec<B>, c: Vec<C> }`, `B { a: Vec<A> }`, `C { b: Vec<B> }`. -/
def triangle : List (String × List MTy) :=
  [("A", [rec' "B", rec' "C"]), ("B", [rec' "A"]), ("C", [rec' "B"])]

/-- The same definitions, visited in another order. -/
def triangle' : List (String × List MTy) :=
  [("C", [rec' "B"]), ("B", [rec' "A"]), ("A", [rec' "B", rec' "C"])]

/-- C46 does not hold: `C` stores `B`, which stores `A`, which stores `C`, yet `C` is not marked
when `A` is visited first and its field `b` before `c`; it is marked in another order. Which types
are marked depends on the order of a hash table. -/
theorem C46_missed :
    Way (Edge triangle) "C" "C" ∧
    inferRecursive triangle = some [("A", true), ("B", true), ("C", false)] ∧
    inferRecursive triangle' = some [("C", true), ("B", true), ("A", true)] := by
  refine ⟨?_, by decide +kernel, by decide +kernel⟩
  have cb : Edge triangle "C" "B" := ⟨[rec' "B"], by decide +kernel, rec' "B", by simp, .sequence (.record _)⟩
  have ba : Edge triangle "B" "A" := ⟨[rec' "A"], by decide +kernel, rec' "A", by simp, .sequence (.record _)⟩
  have ac : Edge triangle "A" "C" :=
    ⟨[rec' "B", rec' "C"], by decide +kernel, rec' "C", by simp, .sequence (.record _)⟩
  exact .more cb (.more ba (.one ac))

/-- A type that contains itself through a custom type is not found: the search does not look at the
type a custom type is made of. -/
theorem C46_custom_missed :
    inferRecursive [("Tree", [.custom "m" "Kids" (.sequence (.record "m" "Tree"))])] =
      some [("Tree", false)] := by decide +kernel

/-- Two mutually recursive enums and one record that uses them. -/
example : inferRecursive [("Expr", [.box (.enum "m" "Stmt"), .int32]),
    ("Stmt", [.optional (.enum "m" "Expr")]), ("Prog", [.sequence (.enum "m" "Stmt")])] =
      some [("Expr", true), ("Stmt", true), ("Prog", false)] := by decide +kernel

/-- The hypotheses of the theorems hold for `triangle`, which has a cycle of three. -/
example : (triangle.map Prod.fst).Nodup ∧ Cycle (Edge triangle) ["C", "B", "A"] := by
  refine ⟨by decide +kernel, "C", ["B", "A"], rfl, ?_, ?_, ?_, trivial⟩
  · exact ⟨[rec' "B"], by decide +kernel, rec' "B", by simp, .sequence (.record _)⟩
  · exact ⟨[rec' "A"], by decide +kernel, rec' "A", by simp, .sequence (.record _)⟩
  · exact ⟨[rec' "B", rec' "C"], by decide +kernel, rec' "C", by simp, .sequence (.record _)⟩

/-- A record without cycle. -/
example : ∀ n, ¬ Way (Edge [("P", [.int32, .record "m" "Q"]), ("Q", [.string])]) n n := by
  have step : ∀ a b, Edge [("P", [.int32, .record "m" "Q"]), ("Q", [.string])] a b → a = "P" ∧ b = "Q" := by
    rintro a b ⟨fs, hf, t, ht, hs⟩
    simp only [List.mem_cons, Prod.mk.injEq, List.not_mem_nil, or_false] at hf
    rcases hf with ⟨ha, hfs⟩ | ⟨ha, hfs⟩ <;> subst hfs <;> simp only [List.mem_cons,
      List.not_mem_nil, or_false] at ht
    · rcases ht with rfl | rfl
      · cases hs
      · cases hs; exact ⟨ha, rfl⟩
    · subst ht; cases hs
  have way : ∀ a b, Way (Edge [("P", [.int32, .record "m" "Q"]), ("Q", [.string])]) a b →
      a = "P" ∧ b = "Q" := by
    intro a b h
    induction h with
    | one h => exact step _ _ h
    | more h _ ih => exact ⟨(step _ _ h).1, ih.2⟩
  intro n h
  have := way n n h
  exact absurd (this.1.symm.trans this.2) (by decide)

end Verif.Props.Recursive
