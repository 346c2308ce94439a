import Verif.Gen.TypeWalkLemmas
import Verif.Meta.NamesLemmas
/-
C48: walking over the types in a type and renaming them.
C54: the generators know every type that occurs in the interface.
C55: everything that can be reached from a type through definitions is found.
-/
namespace Verif.Props.TypeWalk
open Verif Verif.Meta Verif.Gen

/-- `Option<Vec<HashMap<String, krate::Rec>>>`, used in the examples. -/
def sample : MTy := .optional (.sequence (.map .string (.custom "krate" "Url" (.record "krate::m" "Rec"))))

/-- Iterating over a type yields only types that occur in it. -/
theorem C48_iter_sound (t u : MTy) (h : u ∈ iterTypes t) : Inside u t := iterTypes_sound t u h

/-- Without `Box`, iterating over a type yields exactly the types that occur in it, at any depth. -/
theorem C48_iter_partial (t : MTy) (hb : boxFree t) (u : MTy) : u ∈ iterTypes t ↔ Inside u t :=
  ⟨iterTypes_sound t u, fun h => iterTypes_complete h hb⟩

example : boxFree sample ∧ (.record "krate::m" "Rec") ∈ iterTypes sample := by
  refine ⟨rfl, iterTypes_complete ?_ rfl⟩
  exact .part (List.mem_singleton.2 rfl) (.part (List.mem_singleton.2 rfl)
    (.part (by simp [parts] : MTy.custom "krate" "Url" (.record "krate::m" "Rec") ∈ _)
      (.part (List.mem_singleton.2 rfl) .refl)))

/-- The types inside a `Box` are skipped. -/
theorem C48_iter_skips_box (t : MTy) : iterTypes (.box t) = [.box t] ∧ Inside t (.box t) := by
  refine ⟨?_, .part (List.mem_singleton.2 rfl) .refl⟩
  unfold iterTypes iterNested; rfl

/-- Renaming changes nothing but names. -/
theorem C48_rename_shape (f : String → String) (t : MTy) :
    blank (renameRecursive f t) = blank t := blank_renameRecursive f t

/-- Without `Box`, renaming renames every name in the type, and each of them once. -/
theorem C48_rename_partial (f : String → String) (t : MTy) (hb : boxFree t) :
    namesIn (renameRecursive f t) = (namesIn t).map f := namesIn_renameRecursive f t hb

example : renameRecursive (· ++ "2") sample =
    .optional (.sequence (.map .string (.custom "krate" "Url2" (.record "krate::m" "Rec2")))) := by
  decide

/-- The names inside a `Box` are not changed. -/
theorem C48_rename_skips_box (f : String → String) (t : MTy) :
    renameRecursive f (.box t) = .box t := rfl

/-- Two types with the same names and otherwise the same are the same: the two theorems above fix
the result of renaming. -/
theorem C48_names_and_shape (s t : MTy) (h : blank s = blank t) (hn : namesIn s = namesIn t) :
    s = t := by
  have key : ∀ (s t : MTy), blank s = blank t → ∀ r r', namesIn s ++ r = namesIn t ++ r' → s = t ∧ r = r' := by
    intro s
    induction s with
    | map k v ihk ihv =>
      intro t h r r' hn
      cases t <;> simp only [blank, reduceCtorEq, MTy.map.injEq] at h
      simp only [namesIn, List.append_assoc] at hn
      obtain ⟨e1, hn⟩ := ihk _ h.1 _ _ hn
      obtain ⟨e2, hn⟩ := ihv _ h.2 _ _ hn
      exact ⟨by rw [e1, e2], hn⟩
    | custom m n b ih =>
      intro t h r r' hn
      cases t <;> simp only [blank, reduceCtorEq, MTy.custom.injEq] at h
      simp only [namesIn, List.cons_append, List.cons.injEq] at hn
      obtain ⟨e1, hn'⟩ := ih _ h.2.2 _ _ hn.2
      exact ⟨by rw [e1, h.1, hn.1], hn'⟩
    | optional b ih | sequence b ih | set b ih | box b ih =>
      intro t h r r' hn
      cases t <;> simp only [blank, reduceCtorEq, MTy.optional.injEq, MTy.sequence.injEq,
        MTy.set.injEq, MTy.box.injEq] at h
      simp only [namesIn] at hn
      obtain ⟨e1, hn'⟩ := ih _ h _ _ hn
      exact ⟨by rw [e1], hn'⟩
    | _ =>
      intro t h r r' hn
      cases t <;> simp_all [blank, namesIn]
  exact (key s t h [] [] (by simpa using hn)).1

/-! C54 -/

/-- The universe of an interface after adding the types `ts` of its items to an empty one. Without
`Box`, the known types are exactly the types that occur in them, with module paths cut to the crate
name. -/
theorem C54_known_partial (ts : List MTy) (u : Universe)
    (h : addKnownTypes { known := [], defs := [] } ts = some u) (hb : ∀ t ∈ ts, boxFree t) (x : MTy) :
    x ∈ u.known ↔ ∃ t ∈ ts, ∃ s, Inside s t ∧ x = normalize s := by
  obtain ⟨⟨_, k⟩, _⟩ := addKnownTypes_spec ts _ u (by simp) h
  rw [k]
  simp only [List.not_mem_nil, false_or]
  constructor
  · rintro ⟨t, ht, s, hs, rfl⟩
    exact ⟨t, ht, s, iterTypes_sound t s hs, rfl⟩
  · rintro ⟨t, ht, s, hs, rfl⟩
    exact ⟨t, ht, s, iterTypes_complete hs (hb t ht), rfl⟩

/-- Adding types to a universe never forgets any, and each name has one definition: two named types
with the same name that are both added are the same up to module paths. -/
theorem C54_one_definition (ts : List MTy) (u : Universe)
    (h : addKnownTypes { known := [], defs := [] } ts = some u) :
    ∀ t ∈ ts, ∀ t' ∈ ts, ∀ s ∈ iterTypes t, ∀ s' ∈ iterTypes t', ∀ n,
      tyName s = some n → tyName s' = some n → normalize s = normalize s' := by
  obtain ⟨_, _, d⟩ := addKnownTypes_spec ts _ u (by simp) h
  intro t ht t' ht' s hs s' hs' n hn hn'
  obtain ⟨x, hx, e⟩ := d t ht s hs n hn
  obtain ⟨y, hy, e'⟩ := d t' ht' s' hs' n hn'
  rw [hx] at hy; cases hy
  rw [← e, e']

/-- Types are only rejected when a name is used for two different types. -/
theorem C54_accepts (ts : List MTy)
    (hc : ∀ t ∈ ts, ∀ t' ∈ ts, ∀ s ∈ iterTypes t, ∀ s' ∈ iterTypes t', ∀ n,
      tyName s = some n → tyName s' = some n → normalize s = normalize s') :
    ∃ u, addKnownTypes { known := [], defs := [] } ts = some u := by
  classical
  let P : String → MTy → Prop := fun n x =>
    ∃ t ∈ ts, ∃ s ∈ iterTypes t, tyName s = some n ∧ normalize s = x
  let g : String → MTy := fun n => if h : ∃ x, P n x then h.choose else .uint8
  refine addKnownTypes_ok g ts _ (by intro n d h; simp [lookupDef] at h) ?_
  intro t ht s hs n hn
  have hex : ∃ x, P n x := ⟨normalize s, t, ht, s, hs, hn, rfl⟩
  have hg : g n = hex.choose := dif_pos hex
  obtain ⟨t', ht', s', hs', hn', e⟩ := hex.choose_spec
  rw [hg, ← e]
  exact hc t ht t' ht' s hs s' hs' n hn hn'

/-- A module path is cut to what stands before the first `::`. -/
theorem C54_crate (crate : List Char) (hc : ':' ∉ crate) (rest : List Char) :
    crateName (String.ofList crate) = String.ofList crate ∧
    crateName (String.ofList (crate ++ ':' :: ':' :: rest)) = String.ofList crate := by
  simp only [crateName, String.toList_ofList]
  induction crate with
  | nil => exact ⟨rfl, rfl⟩
  | cons c cs ih =>
    simp only [List.mem_cons, not_or] at hc
    have ih := ih hc.2
    have ne : ∀ ds es, c :: ds ≠ ':' :: ':' :: es := fun ds es e => hc.1 (List.cons.inj e).1.symm
    simp only [String.ofList_inj] at ih ⊢
    rw [List.cons_append, beforeColons_cons (ne _), beforeColons_cons (ne _), ih.1, ih.2]
    exact ⟨rfl, rfl⟩

/-- Cutting the module paths of a type cuts all of them, and changes nothing else but `Box`. -/
theorem C54_normalize (t : MTy) :
    pathsIn (normalize t) = (pathsIn t).map crateName ∧ pathless (normalize t) = pathless t := by
  induction t <;> simp_all [normalize, pathsIn, pathless]

/-- Whatever types were added for the component `crate`: each known type is handed out either as a
local type or as an external one, and it is external exactly when it is declared in another crate. -/
theorem C54_external (crate : String) (ts : List MTy) (u : Universe)
    (h : addKnownTypes { known := [], defs := [] } ts = some u) (x : MTy) :
    (x ∈ iterExternalTypes crate u ↔ x ∈ u.known ∧ ∃ c, declaredIn x = some c ∧ c ≠ crate) ∧
    (x ∈ iterLocalTypes crate u ↔ x ∈ u.known ∧ ∀ c, declaredIn x = some c → c = crate) := by
  obtain ⟨⟨k, _⟩, _⟩ := addKnownTypes_spec ts _ u (by simp) h
  have key : x ∈ u.known → ∀ c, declaredIn x = some c → crateName c = c := by
    intro hx c hc
    have hk := k x hx
    cases x <;> simp_all [normalize, declaredIn]
  have ext : x ∈ u.known → (isExternal crate x = true ↔ ∃ c, declaredIn x = some c ∧ c ≠ crate) := by
    intro hx
    have := key hx
    cases x <;> simp_all [isExternal, MTy.crateName, MTy.modulePath, declaredIn]
  simp only [iterExternalTypes, iterLocalTypes, filterLocalTypes, List.mem_filter,
    Bool.not_eq_true', ← Bool.not_eq_true]
  constructor
  · exact ⟨fun ⟨a, b⟩ => ⟨a, (ext a).1 b⟩, fun ⟨a, b⟩ => ⟨a, (ext a).2 b⟩⟩
  · constructor
    · rintro ⟨a, b⟩
      refine ⟨a, fun c hc => ?_⟩
      apply Decidable.byContradiction
      intro hne
      exact b ((ext a).2 ⟨c, hc, hne⟩)
    · rintro ⟨a, b⟩
      refine ⟨a, fun e => ?_⟩
      obtain ⟨c, hc, hne⟩ := (ext a).1 e
      exact hne (b c hc)

/-- Two module paths of one crate. -/
theorem cratesEq : crateName "krate::m" = crateName "krate::other" := by decide +kernel

example : (addKnownTypes { known := [], defs := [] } [sample, .record "krate::other" "Rec"]).isSome ∧
    addKnownTypes { known := [], defs := [] } [sample, .enum "krate::m" "Rec"] = none := by
  constructor
  · simp [sample, addKnownTypes, addKnownType, addNested, iterNested, insertKnown, tyName,
      addTypeDefinition, lookupDef, normalize, cratesEq]
  · simp [sample, addKnownTypes, addKnownType, addNested, iterNested, insertKnown, tyName,
      addTypeDefinition, lookupDef, normalize]

/-- With `Box` a type can be missing: for a field of type `Box<Option<Vec<u32>>>` the generators know
`Option<Vec<u32>>`, which they need, but not `Vec<u32>`, which they need too. -/
theorem C54_box_broken :
    addKnownTypes { known := [], defs := [] } [.box (.optional (.sequence .uint32))] =
      some { known := [.optional (.sequence .uint32)], defs := [] } := by
  simp [addKnownTypes, addKnownType, addNested, iterNested, insertKnown, tyName, normalize]

/-! C55 -/

/-- The iterator stops, whatever cycles there are between definitions. `K` lists the names that have
a definition, `B` bounds the number of types in a definition. -/
theorem C55_terminates (defs : Defs) (K : List (String × String)) (B : Nat)
    (hf : ∀ t ts, defs t = some ts → ts.length ≤ B ∧ ∃ k ∈ K, pendingKey t = some k) (t : MTy) :
    ∃ fuel res, iterTypesInItem defs fuel t = some res ∧
      ∀ fuel' res', iterTypesInItem defs fuel' t = some res' → res' = res := by
  obtain ⟨res, h⟩ := walk_terminates hf (walkMeasure defs K B
    { current := iterTypes t, seen := [], pending := [] } + 1) _ (Nat.lt_succ_self _)
  exact ⟨_, res, h, fun fuel' res' h' => walk_mono _ _ _ _ _ h' h⟩

/-- Only types that can be reached are returned. -/
theorem C55_sound (fields : MTy → Option (List MTy)) (t : MTy) (fuel : Nat) (res : List MTy)
    (h : iterTypesInItem (defsOf fields) fuel t = some res) :
    ∀ u ∈ res, Reaches fields t u := by
  refine walk_sound (defsOf fields) (Reaches fields t) ?_ fuel _ res
    (fun u hu => .inside (iterTypes_sound t u hu)) (by simp) h
  intro v ts hv hd u hu
  simp only [defsOf, Option.map_eq_some_iff] at hd
  obtain ⟨fs, hfs, rfl⟩ := hd
  obtain ⟨f, hf, huf⟩ := List.mem_flatMap.1 hu
  exact .field hv hfs hf (iterTypes_sound f u huf)

/-- Without `Box`, all types that can be reached are returned, however deep and through whatever
cycles. Only records, enums, objects and callback interfaces have definitions, and a name has one
definition. -/
theorem C55_complete_partial (fields : MTy → Option (List MTy)) (t : MTy) (fuel : Nat) (res : List MTy)
    (h : iterTypesInItem (defsOf fields) fuel t = some res)
    (hk : ∀ v fs, fields v = some fs → ∃ k, pendingKey v = some k)
    (hone : ∀ v w k, pendingKey v = some k → pendingKey w = some k → fields v = fields w)
    (hb : boxFree t) (hbf : ∀ v fs, fields v = some fs → ∀ f ∈ fs, boxFree f) :
    ∀ u, Reaches fields t u → u ∈ res := by
  have hc := walk_closed (defsOf fields) t fuel _ [] res
    ⟨fun u hu => .inr hu, by simp, by simp⟩ h
  simp only [List.nil_append] at hc
  intro u hu
  induction hu with
  | inside hi => exact hc.1 _ (iterTypes_complete hi hb)
  | @field u v f fs _ hfs hf hi ih =>
    obtain ⟨k, hkv⟩ := hk v fs hfs
    obtain ⟨w, hw, hall⟩ := hc.2 v ih k hkv
    rw [hone v w k hkv hw] at hfs
    refine hall (fs.flatMap iterTypes) (by simp [defsOf, hfs]) u ?_
    exact List.mem_flatMap.2 ⟨f, hf, iterTypes_complete hi (hbf w fs hfs f hf)⟩

/-- The question asked by the Kotlin and Swift generators: does the type refer to an object? -/
theorem C55_object_references_partial (fields : MTy → Option (List MTy)) (t : MTy) (fuel : Nat) (b : Bool)
    (h : containsObjectReferences (defsOf fields) fuel t = some b)
    (hk : ∀ v fs, fields v = some fs → ∃ k, pendingKey v = some k)
    (hone : ∀ v w k, pendingKey v = some k → pendingKey w = some k → fields v = fields w)
    (hb : boxFree t) (hbf : ∀ v fs, fields v = some fs → ∀ f ∈ fs, boxFree f) :
    b = true ↔ ∃ m n i, Reaches fields t (.object m n i) := by
  simp only [containsObjectReferences, Option.map_eq_some_iff] at h
  obtain ⟨res, hr, rfl⟩ := h
  rw [List.any_eq_true]
  constructor
  · rintro ⟨x, hx, hxo⟩
    cases x <;> simp at hxo
    exact ⟨_, _, _, C55_sound fields t fuel res hr _ hx⟩
  · rintro ⟨m, n, i, hu⟩
    exact ⟨_, C55_complete_partial fields t fuel res hr hk hone hb hbf _ hu, rfl⟩

/-- And: does it contain unsigned numbers? -/
theorem C55_unsigned_partial (fields : MTy → Option (List MTy)) (t : MTy) (fuel : Nat) (b : Bool)
    (h : containsUnsignedTypes (defsOf fields) fuel t = some b)
    (hk : ∀ v fs, fields v = some fs → ∃ k, pendingKey v = some k)
    (hone : ∀ v w k, pendingKey v = some k → pendingKey w = some k → fields v = fields w)
    (hb : boxFree t) (hbf : ∀ v fs, fields v = some fs → ∀ f ∈ fs, boxFree f) :
    b = true ↔ ∃ u ∈ [MTy.uint8, .uint16, .uint32, .uint64], Reaches fields t u := by
  simp only [containsUnsignedTypes, Option.map_eq_some_iff] at h
  obtain ⟨res, hr, rfl⟩ := h
  rw [List.any_eq_true]
  constructor
  · rintro ⟨x, hx, hxo⟩
    refine ⟨x, ?_, C55_sound fields t fuel res hr _ hx⟩
    cases x <;> simp at hxo ⊢
  · rintro ⟨u, hu, hr'⟩
    refine ⟨u, C55_complete_partial fields t fuel res hr hk hone hb hbf _ hr', ?_⟩
    simp only [List.mem_cons, List.not_mem_nil, or_false] at hu
    rcases hu with rfl | rfl | rfl | rfl <;> rfl

/-- Two records that contain each other, one of them with a list of objects. -/
def demoFields : MTy → Option (List MTy)
  | .record "k" "A" => some [.uint8, .optional (.record "k" "B")]
  | .record "k" "B" => some [.sequence (.record "k" "A"), .sequence (.object "k" "O" .struct)]
  | _ => none

example : iterTypesInItem (defsOf demoFields) 40 (.record "k" "A") =
      some [.record "k" "A", .uint8, .optional (.record "k" "B"), .record "k" "B",
        .sequence (.record "k" "A"), .record "k" "A", .sequence (.object "k" "O" .struct),
        .object "k" "O" .struct] ∧
    containsObjectReferences (defsOf demoFields) 40 (.record "k" "A") = some true := by
  decide +kernel

/-- An object behind a `Box` is missed: a record with a field of type `Box<Inner>`, where `Inner` has
an object, is taken not to refer to objects. -/
theorem C55_box_broken :
    ∃ fields : MTy → Option (List MTy),
      fields (.record "k" "A") = some [.box (.record "k" "B")] ∧
      fields (.record "k" "B") = some [.object "k" "O" .struct] ∧
      Reaches fields (.record "k" "A") (.object "k" "O" .struct) ∧
      containsObjectReferences (defsOf fields) 40 (.record "k" "A") = some false := by
  refine ⟨fun
    | .record "k" "A" => some [.box (.record "k" "B")]
    | .record "k" "B" => some [.object "k" "O" .struct]
    | _ => none, rfl, rfl, ?_, ?_⟩
  · refine .field (v := .record "k" "B") (.field (v := .record "k" "A") (.inside .refl) rfl
      (List.mem_singleton.2 rfl) (.part (List.mem_singleton.2 rfl) .refl)) rfl
      (List.mem_singleton.2 rfl) .refl
  · decide +kernel

end Verif.Props.TypeWalk
