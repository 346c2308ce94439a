import Verif.Pipe.Types
import Verif.Pipe.Map
import Verif.Pipe.Initial

/-!
# C86  Nothing in the description of an interface is overlooked or changed on the way to a generator

The tree that generators work on is walked, searched and rebuilt by `uniffi_pipeline`.  Parts of a value
are named by paths (Pipe/Spec.lean).
-/
namespace Verif.Props.Pipe

open Verif.Pipe

/-! ### Parts -/

theorem entries_at : ∀ (es : List (Val × Val)) (j : Nat) (w : Val),
    (es.flatMap fun e => [e.1, e.2])[j]? = some w ↔
      ∃ i e, es[i]? = some e ∧ ((j = 2 * i ∧ w = e.1) ∨ (j = 2 * i + 1 ∧ w = e.2))
  | [], j, w => by simp
  | e :: es, j, w => by
    have ih := entries_at es
    match j with
    | 0 =>
      simp only [List.flatMap_cons, List.cons_append, List.getElem?_cons_zero, Option.some.injEq]
      constructor
      · rintro rfl; exact ⟨0, e, rfl, .inl ⟨rfl, rfl⟩⟩
      · rintro ⟨i, e', h, ⟨h1, h2⟩ | ⟨h1, _⟩⟩
        · obtain rfl : i = 0 := by omega
          simp only [List.getElem?_cons_zero, Option.some.injEq] at h
          rw [h2, h]
        · omega
    | 1 =>
      simp only [List.flatMap_cons, List.cons_append, List.getElem?_cons_succ,
        List.getElem?_cons_zero, Option.some.injEq]
      constructor
      · rintro rfl; exact ⟨0, e, rfl, .inr ⟨rfl, rfl⟩⟩
      · rintro ⟨i, e', h, ⟨h1, _⟩ | ⟨h1, h2⟩⟩
        · omega
        · obtain rfl : i = 0 := by omega
          simp only [List.getElem?_cons_zero, Option.some.injEq] at h
          rw [h2, h]
    | j + 2 =>
      simp only [List.flatMap_cons, List.cons_append, List.nil_append, List.getElem?_cons_succ]
      rw [ih]
      constructor
      · rintro ⟨i, e', h, h'⟩
        exact ⟨i + 1, e', by simpa using h, by
          rcases h' with ⟨h1, h2⟩ | ⟨h1, h2⟩
          · exact .inl ⟨by omega, h2⟩
          · exact .inr ⟨by omega, h2⟩⟩
      · rintro ⟨i, e', h, h'⟩
        match i with
        | 0 => rcases h' with ⟨h', _⟩ | ⟨h', _⟩ <;> omega
        | i + 1 =>
          refine ⟨i, e', by simpa using h, ?_⟩
          rcases h' with ⟨h1, h2⟩ | ⟨h1, h2⟩
          · exact .inl ⟨by omega, h2⟩
          · exact .inr ⟨by omega, h2⟩

/-- Paths go through what is directly inside a value, and through all of it. -/
theorem C86_parts (v : Val) (i : Nat) (p : List Nat) (w : Val) :
    at? v (i :: p) = some w ↔ ∃ c, Inside v i c ∧ at? c p = some w := by
  have key : ∀ c, (children v)[i]? = some c ↔ Inside v i c := by
    intro c
    constructor
    · intro h
      cases v
      case leaf => simp [children] at h
      case none => simp [children] at h
      case box =>
        match i with
        | 0 => simp only [children, List.getElem?_cons_zero, Option.some.injEq] at h; exact h ▸ .box
        | i + 1 => simp [children] at h
      case some =>
        match i with
        | 0 => simp only [children, List.getElem?_cons_zero, Option.some.injEq] at h; exact h ▸ .some
        | i + 1 => simp [children] at h
      case vec => exact .vec h
      case btreeSet => exact .btreeSet h
      case indexSet => exact .indexSet h
      case indexMap =>
        obtain ⟨j, e, he, ⟨rfl, rfl⟩ | ⟨rfl, rfl⟩⟩ := (entries_at _ _ _).1 h
        · exact .key he
        · exact .value he
      case struct =>
        simp only [children, List.getElem?_map, Option.map_eq_some_iff] at h
        obtain ⟨f, hf, rfl⟩ := h
        exact .field hf
      case enum =>
        simp only [children, List.getElem?_map, Option.map_eq_some_iff] at h
        obtain ⟨f, hf, rfl⟩ := h
        exact .variantField hf
    · intro h
      cases h
      case box => rfl
      case some => rfl
      case vec h => exact h
      case btreeSet h => exact h
      case indexSet h => exact h
      case key he => exact (entries_at _ _ _).2 ⟨_, _, he, .inl ⟨rfl, rfl⟩⟩
      case value he => exact (entries_at _ _ _).2 ⟨_, _, he, .inr ⟨rfl, rfl⟩⟩
      case field f hf => simp only [children, List.getElem?_map, hf, Option.map_some]
      case variantField f hf => simp only [children, List.getElem?_map, hf, Option.map_some]
  simp only [at?]
  cases hc : (children v)[i]? with
  | none =>
    simp only [reduceCtorEq, false_iff]
    rintro ⟨c, h, _⟩
    rw [(key c).2 h] at hc
    simp at hc
  | some c =>
    constructor
    · intro h; exact ⟨c, (key c).1 hc, h⟩
    · rintro ⟨c', h, h'⟩
      rw [(key c').2 h] at hc
      simp only [Option.some.injEq] at hc
      exact hc ▸ h'

/-- The value of the second entry of a map. -/
example : at? (.indexMap str str [(.leaf .string "a", .leaf .string "b"),
    (.leaf .string "c", .leaf .string "d")]) [3] = some (.leaf .string "d") := rfl

/-! ### Walking -/

/-- `visit` gives the closure every part of the wanted type, each once, in reading order; it panics
exactly if the type cannot occur, or is a leaf type. -/
theorem C86_visit_partial {σ : Type} {env : Env} {order : List Ty → List Ty} (ho : AnyOrder order)
    (t : Ty) (f : σ → Val → σ) (v : Val) (s : σ) :
    ∃ l, ListsParts v t l ∧
      ((Reaches env (typeOf v) t ∧ isLeaf t = false) →
        visit env order t f v s = .ok ((l.map (·.2)).foldl f s)) ∧
      (¬ (Reaches env (typeOf v) t ∧ isLeaf t = false) →
        visit env order t f v s = .error .notADescendant) := by
  refine ⟨partsOfType v t, listsParts v t, ?_, ?_⟩
  · intro h
    rw [visit, if_pos ((typecheck_iff ho _ _).2 h), walk_onType, feed_ok]
  · intro h
    rw [visit, if_neg fun h' => h ((typecheck_iff ho _ _).1 h')]

/-- `try_visit` does the same and stops at the first failure, which it reports. -/
theorem C86_try_visit {σ ε : Type} {env : Env} {order : List Ty → List Ty} (ho : AnyOrder order)
    (t : Ty) (f : Visitor σ ε) (v : Val) (s : σ) (hr : Reaches env (typeOf v) t)
    (hl : isLeaf t = false) :
    ∃ l, ListsParts v t l ∧ tryVisit env order t f v s = .ok (feed f (l.map (·.2)) s) := by
  refine ⟨partsOfType v t, listsParts v t, ?_⟩
  rw [tryVisit, if_pos ((typecheck_iff ho _ _).2 ⟨hr, hl⟩), walk_onType]

/-- `has_descendant` says whether some part of the wanted type satisfies the predicate. -/
theorem C86_has_descendant {env : Env} {order : List Ty → List Ty} (ho : AnyOrder order)
    (t : Ty) (p : Val → Bool) (v : Val) (hr : Reaches env (typeOf v) t) (hl : isLeaf t = false) :
    ∃ b, hasDescendant env order t p v = .ok b ∧
      (b = true ↔ ∃ q w, q ≠ [] ∧ at? v q = some w ∧ typeOf w = t ∧ p w = true) := by
  rw [hasDescendant, if_pos ((typecheck_iff ho _ _).2 ⟨hr, hl⟩), walk_onType, feed_find]
  by_cases h : ((partsOfType v t).map (·.2)).any p = true
  · refine ⟨true, by simp only [h, if_true], by
      simp only [true_iff]
      simp only [List.any_eq_true, List.mem_map, Prod.exists] at h
      obtain ⟨w, ⟨q, w', hm, rfl⟩, hp⟩ := h
      have := ((listsParts v t).complete q w').1 hm
      exact ⟨q, w', this.1, this.2.1, this.2.2, hp⟩⟩
  · refine ⟨false, by simp only [h, Bool.false_eq_true, if_false], by
      simp only [Bool.false_eq_true, false_iff]
      rintro ⟨q, w, hq, hw, ht, hp⟩
      apply h
      simp only [List.any_eq_true, List.mem_map, Prod.exists]
      exact ⟨w, ⟨q, w, ((listsParts v t).complete q w).2 ⟨hq, hw, ht⟩, rfl⟩, hp⟩⟩

/-- There is no false alarm: if a well-formed value has a part of a type that is no leaf, looking for
that type does not panic. -/
theorem C86_no_false_alarm {env : Env} {order : List Ty → List Ty} (ho : AnyOrder order)
    {v w : Val} (hv : WellTyped env v) {p : List Nat} (hw : at? v p = some w)
    (hl : isLeaf (typeOf w) = false) :
    typecheckVisit env order (typeOf v) (typeOf w) = true :=
  (typecheck_iff ho _ _).2 ⟨part_reached p v w hv hw, hl⟩

/-- Looking for strings always panics, although every interface is full of them. -/
theorem C86_leaf_broken :
    ∃ (v : Val) (p : List Nat) (w : Val), WellTyped initialIr v ∧ at? v p = some w ∧
      ∀ order, AnyOrder order → typecheckVisit initialIr order (typeOf v) (typeOf w) = false := by
  refine ⟨.struct "Field" [("name", .leaf .string "a"), ("orig_name", .leaf .string "a"),
      ("ty", .enum "Type" "UInt8" []), ("default", .none (.named "DefaultValue")),
      ("docstring", .none str)], [0], .leaf .string "a", ?_, rfl, ?_⟩
  · refine .struct (ds := [("name", str), ("orig_name", str), ("ty", typ),
      ("default", .option (.named "DefaultValue")), ("docstring", optStr)]) (by decide) (by decide) ?_
    intro f hf
    simp only [List.mem_cons, List.not_mem_nil, or_false] at hf
    rcases hf with rfl | rfl | rfl | rfl | rfl
    · exact .leaf
    · exact .leaf
    · exact .enum (by rfl) (ds := []) (by decide) rfl (by simp)
    · exact .none
    · exact .none
  · intro order ho
    rw [Bool.eq_false_iff]
    intro h
    have := ((typecheck_iff ho _ _).1 h).2
    simp [typeOf, isLeaf] at this

/-! ### The searches that generators make -/

/-- None of the searches of the first pass panics, whatever order sets come in. -/
theorem C86_searches {order : List Ty → List Ty} (ho : AnyOrder order) :
    ∀ s ∈ searches, typecheckVisit initialIr order s.1 s.2 = true := by
  have hid : AnyOrder id := fun _ _ => Iff.rfl
  have h : ∀ s ∈ searches, typecheckVisit initialIr id s.1 s.2 = true := by decide +kernel
  intro s hs
  exact (typecheck_iff ho _ _).2 ((typecheck_iff hid _ _).1 (h s hs))

theorem reaches {a b : Ty} (h : (a, b) ∈ searches) :
    Reaches initialIr a b ∧ isLeaf b = false := by
  have hid : AnyOrder id := fun _ _ => Iff.rfl
  exact (typecheck_iff hid _ _).1 (C86_searches hid _ h)

/-- The functions that drive futures are declared exactly if something in the namespace is async:
a function, a method or a constructor, wherever it is. -/
theorem C86_async {order : List Ty → List Ty} (ho : AnyOrder order) {ns : Val}
    (ht : typeOf ns = .named "Namespace") :
    ∃ b, hasAsyncFns order ns = .ok b ∧
      (b = true ↔ ∃ p w, p ≠ [] ∧ at? ns p = some w ∧
        (typeOf w = .named "Function" ∨ typeOf w = .named "Method" ∨ typeOf w = .named "Constructor") ∧
        isAsync w = true) := by
  have one : ∀ n, (Ty.named "Namespace", Ty.named n) ∈ searches →
      ∃ b, hasDescendant initialIr order (.named n) isAsync ns = .ok b ∧
        (b = true ↔ ∃ q w, q ≠ [] ∧ at? ns q = some w ∧ typeOf w = .named n ∧ isAsync w = true) := by
    intro n hn
    have := reaches hn
    exact C86_has_descendant ho _ _ _ (by rw [ht]; exact this.1) this.2
  obtain ⟨b1, h1, i1⟩ := one "Function" (by decide)
  obtain ⟨b2, h2, i2⟩ := one "Method" (by decide)
  obtain ⟨b3, h3, i3⟩ := one "Constructor" (by decide)
  refine ⟨b1 || (b2 || b3), ?_, ?_⟩
  · unfold hasAsyncFns
    rw [h1, h2, h3]
    cases b1 <;> cases b2 <;> cases b3 <;> rfl
  · simp only [Bool.or_eq_true, i1, i2, i3]
    constructor
    · rintro (⟨q, w, a, b, c, d⟩ | ⟨q, w, a, b, c, d⟩ | ⟨q, w, a, b, c, d⟩)
      · exact ⟨q, w, a, b, Or.inl c, d⟩
      · exact ⟨q, w, a, b, Or.inr (Or.inl c), d⟩
      · exact ⟨q, w, a, b, Or.inr (Or.inr c), d⟩
    · rintro ⟨q, w, a, b, c | c | c, d⟩
      · exact Or.inl ⟨q, w, a, b, c, d⟩
      · exact Or.inr (Or.inl ⟨q, w, a, b, c, d⟩)
      · exact Or.inr (Or.inr ⟨q, w, a, b, c, d⟩)

theorem addTo_mem {same : Val → Val → Bool} (hs : ∀ a b, same a b = true ↔ a = b) :
    ∀ (l acc : List Val), acc.Nodup →
      (l.foldl (addTo same) acc).Nodup ∧ ∀ x, x ∈ l.foldl (addTo same) acc ↔ x ∈ acc ∨ x ∈ l
  | [], acc, h => by simp [h]
  | v :: l, acc, h => by
    simp only [List.foldl_cons]
    have hany : acc.any (same v) = true ↔ v ∈ acc := by
      simp only [List.any_eq_true, hs]
      constructor
      · rintro ⟨x, hx, rfl⟩; exact hx
      · intro hv; exact ⟨v, hv, rfl⟩
    have step : (addTo same acc v).Nodup ∧ ∀ x, x ∈ addTo same acc v ↔ x ∈ acc ∨ x = v := by
      unfold addTo
      by_cases hv : acc.any (same v) = true
      · rw [if_pos hv]
        rw [hany] at hv
        exact ⟨h, fun x => ⟨Or.inl, fun hx => hx.elim id fun e => e ▸ hv⟩⟩
      · rw [if_neg hv]
        rw [hany] at hv
        refine ⟨?_, fun x => by simp⟩
        rw [List.nodup_append]
        refine ⟨h, by simp, ?_⟩
        intro a ha b hb e
        simp only [List.mem_singleton] at hb
        subst hb; subst e
        exact hv ha
    obtain ⟨n, m⟩ := addTo_mem hs l (addTo same acc v) step.1
    refine ⟨n, fun x => ?_⟩
    rw [m, step.2]
    simp only [List.mem_cons]
    constructor
    · rintro ((h | h) | h)
      · exact Or.inl h
      · exact Or.inr (Or.inl h)
      · exact Or.inr (Or.inr h)
    · rintro (h | h | h)
      · exact Or.inl (Or.inl h)
      · exact Or.inl (Or.inr h)
      · exact Or.inr h

/-- Converters are made for strings and for exactly the types that occur somewhere in the namespace, also
inside other types, each once. -/
theorem C86_types {same : Val → Val → Bool} (hs : ∀ a b, same a b = true ↔ a = b)
    {order : List Ty → List Ty} (ho : AnyOrder order) {ns : Val}
    (ht : typeOf ns = .named "Namespace") :
    ∃ l, apiTypes same order ns = .ok l ∧ l.Nodup ∧
      ∀ w, w ∈ l ↔ w = .enum "Type" "String" [] ∨
        ∃ p, p ≠ [] ∧ at? ns p = some w ∧ typeOf w = .named "Type" := by
  have hr := reaches (a := .named "Namespace") (b := .named "Type") (by decide)
  obtain ⟨l, hl, hv, _⟩ := C86_visit_partial (env := initialIr) ho (.named "Type") (addTo same) ns
    [.enum "Type" "String" []]
  refine ⟨_, hv (by rw [ht]; exact hr), ?_⟩
  obtain ⟨n, m⟩ := addTo_mem hs (l.map (·.2)) [.enum "Type" "String" []] (by simp)
  refine ⟨n, fun w => ?_⟩
  rw [m]
  simp only [List.mem_singleton, List.mem_map, Prod.exists]
  apply or_congr Iff.rfl
  constructor
  · rintro ⟨p, w', hm, rfl⟩; exact ⟨p, (hl.complete p w').1 hm⟩
  · rintro ⟨p, hp⟩; exact ⟨p, w, (hl.complete p w).2 hp, rfl⟩

/-! ### Printing -/

/-- With a filter, the `pipeline` command prints exactly the outermost nodes with a child that matches, in
reading order. -/
theorem C86_print_partial (m : Val → Val → Bool) (v : Val) :
    ∃ l : List (List Nat × Val), (l.Pairwise fun a b => Before a.1 b.1) ∧
      (∀ p w, (p, w) ∈ l ↔ at? v p = some w ∧ Hit m w ∧ FirstHit m v p) ∧
      search m v = l.map (·.2) := by
  obtain ⟨l, hl, he⟩ := search_printed m v
  exact ⟨l, hl.ordered, hl.mem, he⟩

/-- A filter by type finds no node without children: the type `u8` is not printed among the types. -/
theorem C86_print_broken :
    ∃ (v w : Val) (p : List Nat), at? v p = some w ∧ typeName w = some "Type" ∧
      ∀ lower contains spellings,
        search (matchesNode lower contains spellings ⟨some "Type", none⟩) v = [] := by
  refine ⟨.vec typ [.enum "Type" "UInt8" []], .enum "Type" "UInt8" [], [0], rfl, rfl, ?_⟩
  intro lower contains spellings
  rw [search_eq]
  simp only [children, List.any_cons, List.any_nil, matchesNode, typeName]
  simp [search_eq, children]

/-! ### Rebuilding -/

/-- What no function is given for stays as it is. -/
theorem C86_unchanged {ε : Type} {c : Collect} {custom : String → Option (Val → Except ε Val)}
    (v : Val) (hc : ∀ p w, at? v p = some w → ¬ Custom custom w) (hs : Settled c v) :
    mapNode c custom v = .ok v := mapNode_id v hc hs

/-- Every part that a function is given for is replaced by what the function makes of it, at the same
place, however deep it is; leaves outside of such parts stay. -/
theorem C86_rewritten {ε : Type} {c : Collect} {custom : String → Option (Val → Except ε Val)}
    {v v' : Val} (h : mapNode c custom v = .ok v') (hn : NoSets v) {p : List Nat} {w : Val}
    (hw : at? v p = some w) (he : Exposed custom v p) :
    (∀ n f, nodeName w = some n → custom n = some f → ∃ w', f w = .ok w' ∧ at? v' p = some w') ∧
    (∀ k s, w = .leaf k s → at? v' p = some (.leaf k s)) := by
  obtain ⟨w', hw', ha⟩ := mapped_parts p v v' w h hw he
  refine ⟨?_, ?_⟩
  · intro n f hnn hf
    rw [mapNode_custom hnn hf] at hw'
    exact ⟨w', hw', ha hn⟩
  · rintro k s rfl
    rw [mapNode] at hw'
    simp only [Except.ok.injEq] at hw'
    subst hw'
    exact ha hn

/-- Rebuilding fails exactly if one of the functions fails, and then with the first failure in reading
order. -/
theorem C86_failure {ε : Type} {c : Collect} {custom : String → Option (Val → Except ε Val)}
    (v : Val) (e : ε) :
    mapNode c custom v = .error e ↔ ∃ p, FirstFailure custom v p e := error_iff v e

/-- A generator's own passes after shared ones see what the shared ones made. -/
theorem C86_passes {ε : Type} (ps qs : List (Val → Except ε Val)) (v : Val) :
    execute (ps ++ qs) v =
      match execute ps v with
      | .error e => .error e
      | .ok v => execute qs v := by
  induction ps generalizing v with
  | nil => rfl
  | cons p ps ih =>
    simp only [List.cons_append, execute]
    cases p v with
    | error e => rfl
    | ok v => exact ih v

/-! ### A concrete interface -/

/-- `u8`, an optional `u8`. -/
def u8 : Val := .enum "Type" "UInt8" []
def optU8 : Val := .enum "Type" "Optional" [("inner_type", .box typ u8)]

/-- `async fn f() -> Option<u8>`. -/
def fnF : Val := .struct "Function" [("orig_name", .leaf .string "f"), ("id", .leaf .u64 "0"),
  ("name", .leaf .string "f"), ("module_path", .leaf .string "c"), ("is_async", .leaf .bool "true"),
  ("inputs", .vec (.named "Argument") []), ("return_type", .some typ optU8), ("throws", .none typ),
  ("checksum", .some (.leaf .u16) (.leaf .u16 "7")), ("docstring", .none str)]

def nsF : Val := .struct "Namespace" [("name", .leaf .string "n"), ("crate_name", .leaf .string "c"),
  ("config_toml", .none str), ("docstring", .none str), ("functions", .vec (.named "Function") [fnF]),
  ("type_definitions", .vec (.named "TypeDefinition") [])]

example : at? nsF [4, 0, 6, 0, 0, 0] = some u8 := rfl

example : WellTyped initialIr u8 := .enum (by rfl) (ds := []) (by decide) rfl (by simp)

/-- Both types are found, the inner one as well. -/
example (same) (hs : ∀ a b, same a b = true ↔ a = b) : ∃ l, apiTypes same id nsF = .ok l ∧
    u8 ∈ l ∧ optU8 ∈ l := by
  obtain ⟨l, hl, _, hm⟩ := C86_types hs (fun _ _ => Iff.rfl) (order := id) (ns := nsF) rfl
  exact ⟨l, hl, (hm _).2 (Or.inr ⟨[4, 0, 6, 0, 0, 0], by decide, rfl, rfl⟩),
    (hm _).2 (Or.inr ⟨[4, 0, 6, 0], by decide, rfl, rfl⟩)⟩

/-- The function is async, so futures are declared. -/
example : hasAsyncFns id nsF = .ok true := by
  obtain ⟨b, hb, h⟩ := C86_async (fun _ _ => Iff.rfl) (order := id) (ns := nsF) rfl
  rw [hb, h.2 ⟨[4, 0], fnF, by decide, rfl, Or.inl rfl, rfl⟩]

/-- A function that replaces every type by `u8` is applied to the element of a list. -/
example (c : Collect) :
    mapNode (ε := Empty) c (fun n => if n = "Type" then some fun _ => .ok u8 else none)
      (.vec typ [optU8]) = .ok (.vec typ [u8]) := by
  rw [mapNode]
  simp [mapAll, mapNode, optU8]

/-- Nothing to print without a hit, and the vector's element with one. -/
example : search (fun v _ => typeName v == some "Type") (.vec typ [optU8]) = [optU8] := by
  simp [search_eq, children, typeName, optU8]

example : Exposed (ε := Empty) (fun _ => none) nsF [4, 0] := by
  rintro q _ w _ ⟨n, _, h⟩
  simp at h

end Verif.Props.Pipe
