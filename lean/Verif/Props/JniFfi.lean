import Verif.Jni.FfiTypesLemmas
import Verif.Props.JniLayout
/-
C71: values taken apart into arguments of native functions (Kotlin JNI) are put together again.
-/
namespace Verif.Props.JniFfi
open Verif.Jni Verif.Gen
open Verif.Props.JniLayout (DistinctNames)

theorem ffiTypes_spec {nss : List (List TypeDef)} {m : FfiMap} (e : ffiTypes nss = some m)
    (hn : DistinctNames nss) :
    ∀ d ∈ nss.flatten, ∃ m0 m1 : FfiMap, m0.addDef d = some m1 ∧ m0.Le m ∧ m1.Le m := by
  unfold ffiTypes sortDefs at e
  obtain ⟨res, h1, hp⟩ := Verif.Props.Sort.C45_permutation TypeDef.itemName TypeDef.depNames _ hn
  rw [h1] at e
  have hn' : (res.map TypeDef.itemName).Nodup := (hp.map _).nodup_iff.1 hn
  have hs : (res.map TypeDef.self).Nodup := by
    have : (res.map TypeDef.self).map canonicalName = res.map TypeDef.itemName := by
      simp [TypeDef.itemName]
    rw [← this] at hn'
    exact (List.pairwise_map.1 hn').imp fun hne he => hne (congrArg _ he)
  obtain ⟨_, b⟩ := addDefs_ffi res _ m (by simpa using e) hs (fun _ _ => rfl)
  exact fun d hd => b d (hp.subset hd)

/-- The fields of every variant of every enum are given values of the enum's list of their own: of the right
types, no two the same, and none of them the discriminant. (The generator never stops with "could not
allocate".) -/
theorem C71_variant_fits (nss : List (List TypeDef)) (m : FfiMap) (h : ffiTypes nss = some m)
    (hn : DistinctNames nss) (n : Name) (variants : List (List Ty))
    (hd : .enum n false variants ∈ nss.flatten) (v : List Ty) (hv : v ∈ variants) :
    ∃ ffi per alloc, m.get (.enum n) = some ffi ∧ v.mapM m.get = some per ∧
      allocVariant ffi per = some alloc ∧ ffi[0]? = some .int32 ∧
      alloc.map (·.map FfiField.ty) = per ∧
      (∀ f ∈ alloc.flatten, 0 < f.index ∧ ffi[f.index]? = some f.ty) ∧
      (alloc.flatten.map FfiField.index).Nodup := by
  obtain ⟨m0, m1, ha, l0, l1⟩ := ffiTypes_spec h hn _ hd
  simp only [FfiMap.addDef, Option.bind_eq_bind, Option.bind_eq_some_iff] at ha
  obtain ⟨ffi, hf, e⟩ := ha
  cases e
  obtain ⟨hpre, hroom⟩ := mergeVariants_room variants _ _ (by simp) hf
  obtain ⟨l, hl, hcount⟩ := hroom v hv
  obtain ⟨per, p1, p2⟩ := concat_per v l (l0.concat _ _ hl)
  subst p2
  have htail : ((ffiFields ffi).drop 1).map FfiField.ty = ffi.tail := by
    rw [List.map_drop, ffiFields_ty, List.drop_one]
  obtain ⟨alloc, rest, a1, a2, a3⟩ := allocAll_spec per ((ffiFields ffi).drop 1)
    (fun t => by rw [htail]; exact hcount t)
  refine ⟨ffi, per, alloc, ?_, p1, a1, ?_, a2, ?_, ?_⟩
  · simp only [FfiMap.get, standard]
    exact l1 _ _ (by simp [FfiMap.insert])
  · obtain ⟨c, rfl⟩ := hpre
    rfl
  · intro f hf
    have hm : f ∈ (ffiFields ffi).drop 1 := a3.subset (List.mem_append_left _ hf)
    refine ⟨?_, ffiFields_get (List.mem_of_mem_drop hm)⟩
    have hi : f.index ∈ ((ffiFields ffi).drop 1).map FfiField.index := List.mem_map_of_mem hm
    rw [List.map_drop, ffiFields_index] at hi
    obtain ⟨i, hi, he⟩ := List.getElem_of_mem hi
    simp at he
    omega
  · have : (((ffiFields ffi).drop 1).map FfiField.index).Nodup := by
      rw [List.map_drop, ffiFields_index]
      exact List.nodup_range.sublist (List.drop_sublist _ _)
    have h2 := (a3.map FfiField.index).nodup_iff.2 this
    rw [List.map_append, List.nodup_append] at h2
    exact h2.1

theorem zip_ty {α : Type} (tyOf : α → Ffi) : ∀ (fs : List FfiField) (p : List α),
    fs.map FfiField.ty = p.map tyOf → ∀ b ∈ (fs.map FfiField.index).zip p,
      (⟨b.1, tyOf b.2⟩ : FfiField) ∈ fs := by
  intro fs
  induction fs with
  | nil => intro p _ b hb; simp at hb
  | cons f fs ih =>
    intro p he b hb
    cases p with
    | nil => simp at he
    | cons x p =>
      simp only [List.map_cons, List.cons.injEq, List.zip_cons_cons, List.mem_cons] at he hb ⊢
      rcases hb with hb | hb
      · left; subst hb; rw [← he.1]
      · right; exact ih p he.2 b hb

/-- Whatever the values of the fields are taken apart into, the variant is passed as values of the enum's
list of types, the first of which is the discriminant, and the other side gets the same values for each
field. -/
theorem C71_variant_round_trip {α : Type} (tyOf : α → Ffi) (dflt : Ffi → α) (hdflt : ∀ t, tyOf (dflt t) = t)
    (nss : List (List TypeDef)) (m : FfiMap) (h : ffiTypes nss = some m)
    (hn : DistinctNames nss) (n : Name) (variants : List (List Ty))
    (hd : .enum n false variants ∈ nss.flatten) (v : List Ty) (hv : v ∈ variants)
    (disc : α) (hdisc : tyOf disc = .int32) (pieces : List (List α))
    (hp : v.mapM m.get = some (pieces.map (·.map tyOf))) :
    ∃ ffi alloc values, m.get (.enum n) = some ffi ∧
      allocVariant ffi (pieces.map (·.map tyOf)) = some alloc ∧
      packVariant dflt ffi alloc disc pieces = some values ∧
      values.map tyOf = ffi ∧ values[0]? = some disc ∧
      unpackVariant alloc values = some pieces := by
  obtain ⟨ffi, per, alloc, h1, h2, h3, h0, h4, h5, h6⟩ := C71_variant_fits nss m h hn n variants hd v hv
  rw [hp] at h2
  cases h2
  have hlen : alloc.map List.length = pieces.map List.length := by
    have := congrArg (List.map List.length) h4
    simpa [List.map_map, Function.comp_def] using this
  have hkeys := boundValues_keys alloc pieces hlen
  have hnodup : (((0, disc) :: boundValues alloc pieces).map Prod.fst).Nodup := by
    rw [List.map_cons, hkeys, List.nodup_cons]
    refine ⟨?_, h6⟩
    intro hc
    obtain ⟨f, hf, he⟩ := List.mem_map.1 hc
    have := (h5 f hf).1
    omega
  -- the type of every bound value
  have hty : ∀ (alloc : List (List FfiField)) (pieces : List (List α)),
      alloc.map (·.map FfiField.ty) = pieces.map (·.map tyOf) →
      ∀ b ∈ boundValues alloc pieces, (⟨b.1, tyOf b.2⟩ : FfiField) ∈ alloc.flatten := by
    intro alloc
    induction alloc with
    | nil => intro _ _ b hb; simp [boundValues] at hb
    | cons fs alloc ih =>
      intro pieces he b hb
      cases pieces with
      | nil => simp at he
      | cons p pieces =>
        simp only [List.map_cons, List.cons.injEq] at he
        unfold boundValues at hb
        simp only [List.zip_cons_cons, List.flatMap_cons] at hb
        rcases List.mem_append.1 hb with hb | hb
        · rw [List.flatten_cons]
          apply List.mem_append_left
          exact zip_ty tyOf fs p he.1 b hb
        · rw [List.flatten_cons]
          exact List.mem_append_right _ (ih pieces he.2 b hb)
  have hall : ∀ f ∈ ffiFields ffi, ∃ b,
      (if f ∈ (ffiFields ffi).take 1 ++ alloc.flatten then
        lastBound ((0, disc) :: boundValues alloc pieces) f.index else some (dflt f.ty)) = some b := by
    intro f hf
    by_cases hu : f ∈ (ffiFields ffi).take 1 ++ alloc.flatten
    · rw [if_pos hu]
      have : ∃ x, (f.index, x) ∈ (0, disc) :: boundValues alloc pieces := by
        have hk : f.index ∈ ((0, disc) :: boundValues alloc pieces).map Prod.fst := by
          rw [List.map_cons, hkeys]
          rcases List.mem_append.1 hu with hu | hu
          · have : f.index ∈ ((ffiFields ffi).take 1).map FfiField.index := List.mem_map_of_mem hu
            rw [List.map_take, ffiFields_index] at this
            obtain ⟨i, hi, he⟩ := List.getElem_of_mem this
            simp only [List.getElem_take, List.getElem_range] at he
            simp only [List.length_take, List.length_range] at hi
            have : f.index = 0 := by omega
            rw [this]; simp
          · exact List.mem_cons_of_mem _ (List.mem_map_of_mem hu)
        obtain ⟨⟨i, x⟩, hx, he⟩ := List.mem_map.1 hk
        simp only at he
        subst he
        exact ⟨x, hx⟩
      obtain ⟨x, hx⟩ := this
      exact ⟨x, lastBound_unique _ _ _ hnodup hx⟩
    · rw [if_neg hu]; exact ⟨_, rfl⟩
  obtain ⟨values, v1, v2, v3⟩ := mapM_total _ hall
  have hbound : ∀ b ∈ (0, disc) :: boundValues alloc pieces, values[b.1]? = some b.2 := by
    intro b hb
    have hf : ∃ t, ffi[b.1]? = some t ∧ (⟨b.1, t⟩ : FfiField) ∈ (ffiFields ffi).take 1 ++ alloc.flatten := by
      rcases List.mem_cons.1 hb with hb | hb
      · subst hb
        refine ⟨.int32, h0, List.mem_append_left _ ?_⟩
        have := ffiFields_getElem? _ _ _ h0
        cases hff : ffiFields ffi with
        | nil => rw [hff] at this; simp at this
        | cons a as => rw [hff] at this; simp at this; simp [this]
      · have hm := hty alloc pieces h4 b hb
        exact ⟨tyOf b.2, (h5 _ hm).2, List.mem_append_right _ hm⟩
    obtain ⟨t, ht, hm⟩ := hf
    obtain ⟨x, hx, he⟩ := v3 b.1 _ (ffiFields_getElem? _ _ _ ht)
    rw [if_pos hm, lastBound_unique _ b.1 b.2 hnodup hb] at he
    cases he
    exact hx
  refine ⟨ffi, alloc, values, h1, h3, v1, ?_, hbound (0, disc) (by simp), ?_⟩
  · apply List.ext_getElem?
    intro i
    cases ht : ffi[i]? with
    | none =>
      have hl : (ffiFields ffi).length = ffi.length := by simp [ffiFields]
      rw [List.getElem?_eq_none_iff] at ht ⊢
      simp [v2, hl, ht]
    | some t =>
      obtain ⟨x, hx, he⟩ := v3 i _ (ffiFields_getElem? _ _ _ ht)
      rw [List.getElem?_map, hx, Option.map_some]
      congr 1
      by_cases hu : (⟨i, t⟩ : FfiField) ∈ (ffiFields ffi).take 1 ++ alloc.flatten
      · rw [if_pos hu] at he
        -- the bound value has the type of the field
        unfold lastBound at he
        rw [Option.map_eq_some_iff] at he
        obtain ⟨⟨j, y⟩, hb, hy⟩ := he
        have hj := List.find?_some hb
        have hmem := List.mem_of_find?_eq_some hb
        simp only [List.mem_reverse] at hmem
        simp only [beq_iff_eq] at hj hy
        subst hj; subst hy
        rcases List.mem_cons.1 hmem with hc | hc
        · cases hc; rw [h0] at ht; cases ht; exact hdisc
        · have := (h5 _ (hty alloc pieces h4 _ hc)).2
          simp only at this
          rw [ht] at this
          exact (Option.some.inj this).symm
      · rw [if_neg hu] at he
        cases he
        exact hdflt t
  · exact unpack_of_bound values alloc pieces hlen (fun b hb => hbound b (List.mem_cons_of_mem _ hb))

/-- A record is passed as the values of its fields one after another, and the other side gets the same values
for each field, unless it is passed as a single value that is not in the first field. -/
theorem C71_record_round_trip_partial {α : Type} (tyOf : α → Ffi)
    (nss : List (List TypeDef)) (m : FfiMap) (h : ffiTypes nss = some m)
    (hn : DistinctNames nss) (n : Name) (fields : List Ty) (hd : .record n fields ∈ nss.flatten)
    (pieces : List (List α)) (hp : fields.mapM m.get = some (pieces.map (·.map tyOf)))
    (hfirst : pieces.flatten.length = 1 → ∃ p rest, pieces = p :: rest ∧ p ≠ []) :
    ∃ ffi, m.get (.record n) = some ffi ∧ (packRecord pieces).map tyOf = ffi ∧
      unpackRecord (recordIndices 0 (pieces.map (·.map tyOf))) (packRecord pieces) = some pieces := by
  obtain ⟨m0, m1, ha, l0, l1⟩ := ffiTypes_spec h hn _ hd
  simp only [FfiMap.addDef, Option.bind_eq_bind, Option.bind_eq_some_iff] at ha
  obtain ⟨ffi, hf, e⟩ := ha
  cases e
  obtain ⟨per, p1, p2⟩ := concat_per fields ffi (l0.concat _ _ hf)
  rw [hp] at p1
  cases p1
  subst p2
  have hpack : packRecord pieces = pieces.flatten := by
    unfold packRecord
    split
    · rename_i hl
      obtain ⟨p, rest, rfl, hne⟩ := hfirst hl
      simp only [List.flatten_cons, List.length_append] at hl ⊢
      have : 0 < p.length := List.length_pos_iff.2 hne
      have : rest.flatten = [] := List.length_eq_zero_iff.1 (by omega)
      rw [this, List.append_nil]
    · rfl
  refine ⟨(pieces.map (·.map tyOf)).flatten, ?_, ?_, ?_⟩
  · simp only [FfiMap.get, standard]
    exact l1 _ _ (by simp [FfiMap.insert])
  · rw [hpack, List.map_flatten]
  · rw [hpack]
    have key : ∀ (pieces : List (List α)) (done : List α),
        unpackRecord (recordIndices done.length (pieces.map (·.map tyOf))) (done ++ pieces.flatten) =
          some pieces := by
      intro pieces
      induction pieces with
      | nil => intro done; rfl
      | cons p pieces ih =>
        intro done
        have h2 := ih (done ++ p)
        simp only [List.length_append, List.append_assoc] at h2
        have h1 := mapM_get (done ++ (p ++ pieces.flatten)) (List.range' done.length p.length) p (by simp) (by
          intro b hb
          obtain ⟨i, hi, he⟩ := List.getElem_of_mem hb
          simp at hi
          simp at he
          subst he
          simp only
          rw [List.getElem?_append_right (by omega), Nat.add_sub_cancel_left,
            List.getElem?_append_left hi, List.getElem?_eq_getElem hi])
        unfold unpackRecord at h2 ⊢
        simp only [List.map_cons, recordIndices, List.mapM_cons, List.length_map, List.flatten_cons, h1, h2]
        rfl
    exact key pieces []

/-- A record whose first field is a record without fields and whose second field is a number: it is
passed as one value, but the code generated passes what the first field is taken apart into, which
is nothing, and there is no value for the second field. -/
theorem C71_unit_field_broken :
    ∃ (nss : List (List TypeDef)) (m : FfiMap), ffiTypes nss = some m ∧ DistinctNames nss ∧
      .record ⟨"a", "R"⟩ [.record ⟨"a", "Unit"⟩, .int .u32] ∈ nss.flatten ∧
      m.get (.record ⟨"a", "R"⟩) = some [.int32] ∧
      ∀ x : Nat, packRecord [[], [x]] = [] ∧
        unpackRecord (recordIndices 0 [[], [.int32]]) (packRecord [[], [x]]) = none := by
  have hs : ((ffiTypes [[.record ⟨"a", "Unit"⟩ [], .record ⟨"a", "R"⟩ [.record ⟨"a", "Unit"⟩, .int .u32]]]).bind
      fun m => m.get (.record ⟨"a", "R"⟩)) = some [.int32] := by decide +kernel
  obtain ⟨m, h1, h2⟩ := Option.bind_eq_some_iff.1 hs
  refine ⟨_, m, h1, by decide +kernel, by decide, h2, fun x => ⟨rfl, rfl⟩⟩

/-! ### Totality -/

/-- A definition the generator can look into: not just a mention of a type of another crate. -/
def Known (d : TypeDef) : Prop := ¬ ∃ t us, d = .other t us

theorem needs_mono {items items' : List TypeDef} (hs : ∀ x ∈ items, x ∈ items') {x y : TypeDef}
    (h : Needs TypeDef.itemName TypeDef.depNames items x y) :
    Needs TypeDef.itemName TypeDef.depNames items' x y := by
  induction h with
  | direct hm hd => exact .direct (hs _ hm) hd
  | through hm hd _ ih => exact .through (hs _ hm) hd ih

/-- If names are distinct, no definition needs itself, and each type used is passed in a fixed way or defined
among the definitions, then the generator finds a list of FFI types for all of them. -/
theorem C71_all_types_mapped (nss : List (List TypeDef)) (hn : DistinctNames nss)
    (hac : ∀ d ∈ nss.flatten, ¬ Needs TypeDef.itemName TypeDef.depNames nss.flatten d d)
    (hclosed : ∀ d ∈ nss.flatten, ∀ t ∈ d.ffiUses,
      standard t ≠ none ∨ ∃ d' ∈ nss.flatten, d'.self = t ∧ Known d') :
    ∃ m, ffiTypes nss = some m := by
  unfold ffiTypes sortDefs
  obtain ⟨res, h1, hp⟩ := Verif.Props.Sort.C45_permutation TypeDef.itemName TypeDef.depNames _ hn
  rw [h1]
  have hn' : (res.map TypeDef.itemName).Nodup := (hp.map _).nodup_iff.1 hn
  have hs : (res.map TypeDef.self).Nodup := by
    have : (res.map TypeDef.self).map canonicalName = res.map TypeDef.itemName := by
      simp [TypeDef.itemName]
    rw [← this] at hn'
    exact (List.pairwise_map.1 hn').imp fun hne he => hne (congrArg _ he)
  have hord := Verif.Props.Sort.C45_acyclic TypeDef.itemName TypeDef.depNames _ res h1
    (fun x hx hc => hac x (hp.mem_iff.2 hx) (needs_mono (fun y hy => hp.mem_iff.2 hy) hc))
  have := addDefs_total res [] (fun _ => none) (by simpa using hs) (by simp) (by simp) (by
    intro pre d post he t ht
    simp only [List.nil_append] at he
    have hd : d ∈ res := by rw [he]; simp
    rcases hclosed d (hp.mem_iff.2 hd) t ht with h | ⟨d', hd', hs', hk⟩
    · exact Or.inl h
    · right
      refine ⟨d', hord pre d post he d' (.direct (hp.mem_iff.1 hd') ?_), hs', hk⟩
      unfold TypeDef.depNames TypeDef.itemName
      rw [hs']
      exact List.mem_map_of_mem (ffiUses_sub d t ht))
  cases e : FfiMap.addDefs (fun _ => none) res with
  | none => exact absurd e this
  | some m => exact ⟨m, by simp [e]⟩

theorem acyclic_of_rank (items : List TypeDef) (rank : TypeDef → Nat)
    (h : ∀ x, ∀ y ∈ items, y.itemName ∈ x.depNames → x ∈ items → rank y < rank x) :
    ∀ d ∈ items, ¬ Needs TypeDef.itemName TypeDef.depNames items d d := by
  have key : ∀ {x y : TypeDef}, Needs TypeDef.itemName TypeDef.depNames items x y → x ∈ items →
      rank y < rank x := by
    intro x y hn
    induction hn with
    | direct hm hd => intro hx; exact h _ _ hm hd hx
    | through hm hd _ ih => intro hx; exact Nat.lt_trans (ih hm) (h _ _ hm hd hx)
  exact fun d hd hn => Nat.lt_irrefl _ (key hn hd)

/-- A small interface: a record, an option of it and an enum whose variants share values. -/
def shapes : List TypeDef :=
  [.enum ⟨"g", "Shape"⟩ false
    [[.record ⟨"g", "Point"⟩, .int .u32], [.string], [.int .i32, .int .i32, .option (.record ⟨"g", "Point"⟩)]],
   .optional (.record ⟨"g", "Point"⟩),
   .record ⟨"g", "Point"⟩ [.f64, .f64],
   .custom ⟨"g", "Id"⟩ (.int .u64)]

example : (ffiTypes [shapes]).map (fun m => (m.get (.enum ⟨"g", "Shape"⟩), m.get (.option (.record ⟨"g", "Point"⟩)))) =
    some (some [.int32, .float64, .float64, .int32, .string, .int32, .boolean, .float64],
      some [.boolean, .float64, .float64]) := by decide +kernel

example : DistinctNames [shapes] := by decide +kernel

/-- The fields of its third variant. -/
example : allocVariant [.int32, .float64, .float64, .int32, .string, .int32, .boolean, .float64]
    [[.int32], [.int32], [.boolean, .float64, .float64]] =
    some [[⟨3, .int32⟩], [⟨5, .int32⟩], [⟨6, .boolean⟩, ⟨1, .float64⟩, ⟨2, .float64⟩]] := by decide +kernel

/-- Its third variant taken apart and put together. -/
example : (packVariant (fun _ => 0)
      [.int32, .float64, .float64, .int32, .string, .int32, .boolean, .float64]
      [[⟨3, .int32⟩], [⟨5, .int32⟩], [⟨6, .boolean⟩, ⟨1, .float64⟩, ⟨2, .float64⟩]] 3
      [[10], [20], [1, 30, 40]]) = some [3, 30, 40, 10, 0, 20, 1, 0] := by decide +kernel

example : ∃ m, ffiTypes [shapes] = some m := by
  refine C71_all_types_mapped [shapes] (by decide +kernel)
    (acyclic_of_rank _ (fun d => if d.itemName = "TypeShape" then 2 else if d.itemName = "OptionalTypePoint" then 1 else 0)
      ?_) ?_
  · intro x y hy hd hx
    have : ∀ x ∈ [shapes].flatten, ∀ y ∈ [shapes].flatten, y.itemName ∈ x.depNames →
        (if y.itemName = "TypeShape" then 2 else if y.itemName = "OptionalTypePoint" then 1 else 0) <
          (if x.itemName = "TypeShape" then 2 else if x.itemName = "OptionalTypePoint" then 1 else 0) := by
      decide +kernel
    exact this x hx y hy hd
  · intro d hd t ht
    simp only [shapes, List.flatten_cons, List.flatten_nil, List.append_nil, List.mem_cons, List.not_mem_nil,
      or_false] at hd
    rcases hd with rfl | rfl | rfl | rfl <;>
      simp only [TypeDef.ffiUses, List.flatten_cons, List.flatten_nil, List.cons_append, List.nil_append,
        List.mem_cons, List.not_mem_nil, or_false] at ht
    · rcases ht with rfl | rfl | rfl | rfl | rfl | rfl
      · right; exact ⟨.record ⟨"g", "Point"⟩ [.f64, .f64], by decide, rfl, by rintro ⟨_, _, h⟩; cases h⟩
      · left; decide
      · left; decide
      · left; decide
      · left; decide
      · right; exact ⟨.optional (.record ⟨"g", "Point"⟩), by decide, rfl, by rintro ⟨_, _, h⟩; cases h⟩
    · right; subst ht; exact ⟨.record ⟨"g", "Point"⟩ [.f64, .f64], by decide, rfl, by rintro ⟨_, _, h⟩; cases h⟩
    · left; rcases ht with rfl | rfl <;> decide
    · left; subst ht; decide

end Verif.Props.JniFfi
