import Verif.Gen.DiscrLemmas
/-
C47: enum discriminants in the bindings are those of the Rust enum.
`ds` are the discriminants written in the Rust source, `ms` what the metadata says about them.
-/
namespace Verif.Props.Discr
open Verif Verif.Meta Verif.Gen

/-- The newer pipeline. Whenever Rust accepts the enum, that is, every discriminant fits the declared
type or 64 signed bits, each variant gets the discriminant Rust gives it, written as a literal of
the discriminant type. That type is the declared one, or the smallest signed type that contains all
discriminants. -/
theorem C47_pipeline (ty : Option MTy) (ds : List (Option Int)) (ms : List (Option MLit))
    (hm : listMeaning (optMeaning (intMeaning · .uint64)) ds = some ms)
    (hr : ∀ t, ty = some t → t ∈ [MTy.uint8, .uint16, .uint32, .uint64, .int8, .int16, .int32, .int64])
    (hfit : ∀ z ∈ rustDiscrs none ds, inType z (ty.getD .int64)) :
    ∃ t ls, determineDiscriminants ty ms = .ok (t, ls) ∧
      ls.map litValue = (rustDiscrs none ds).map some ∧
      (∀ l ∈ ls, litType l = some t) ∧
      (∀ z ∈ rustDiscrs none ds, inType z t) ∧
      (∀ t', ty = some t' → t = t') ∧
      (ty = none → t ∈ [MTy.int8, .int16, .int32, .int64] ∧
        ∀ t' ∈ [MTy.int8, .int16, .int32, .int64], (∀ z ∈ rustDiscrs none ds, inType z t') →
          ∀ z, inType z t → inType z t') := by
  obtain ⟨hv, hg⟩ := listMeaning_discrs hm
  have key : ∀ signed, (signed = false ∨ ∀ z ∈ rustDiscrs none ds, z < 2 ^ 63) →
      (signed = true ∨ ∀ z ∈ rustDiscrs none ds, 0 ≤ z) →
      (∀ z ∈ rustDiscrs none ds, -2 ^ 63 ≤ z ∧ z < 2 ^ 64) →
      ∃ st', discrLoop signed { maxValue := 0, minValue := 0, discrs := [] } ms = .ok st' ∧
        st'.discrs.map litValue = (rustDiscrs none ds).map some ∧
        st'.minValue ≤ 0 ∧
        (∀ z ∈ rustDiscrs none ds, st'.minValue ≤ z ∧ z ≤ st'.maxValue) ∧
        (st'.minValue = 0 ∨ st'.minValue ∈ rustDiscrs none ds) ∧
        (st'.maxValue = 0 ∨ (st'.maxValue : Int) ∈ rustDiscrs none ds) := by
    intro signed a b c
    obtain ⟨st, e1, e2, e3, _, e5, e6, e7⟩ := discrLoop_spec signed ms
      { maxValue := 0, minValue := 0, discrs := [] } ds none hv
      (fun l hl => ⟨(hg l hl).1, fun _ => (hg l hl).2⟩) rfl (by simp) (Int.le_refl 0) c a
      (b.imp id fun h => ⟨h, by simp⟩)
    exact ⟨st, e1, by simpa using e2, e3, e5, e6, e7⟩
  have fin : ∀ (t : MTy) (st : DiscrSt),
      st.discrs.map litValue = (rustDiscrs none ds).map some →
      (st.discrs.map (setType t)).map litValue = (rustDiscrs none ds).map some ∧
        ∀ l ∈ st.discrs.map (setType t), litType l = some t := by
    intro t st h
    constructor
    · rw [← h, List.map_map]
      exact List.map_congr_left fun l _ => litValue_setType t l
    · intro l hl
      obtain ⟨l', hl', rfl⟩ := List.mem_map.1 hl
      apply litType_setType
      have : litValue l' ∈ (rustDiscrs none ds).map some := by rw [← h]; exact List.mem_map_of_mem hl'
      obtain ⟨z, _, hz⟩ := List.mem_map.1 this
      rw [← hz]; simp
  cases ty with
  | some t =>
    have ht := hr t rfl
    simp only [Option.getD_some] at hfit
    obtain ⟨signed, hs, h1, h2, h3⟩ : ∃ signed, signedType (some t) = some signed ∧
        (signed = false ∨ ∀ z ∈ rustDiscrs none ds, z < 2 ^ 63) ∧
        (signed = true ∨ ∀ z ∈ rustDiscrs none ds, 0 ≤ z) ∧
        (∀ z ∈ rustDiscrs none ds, -2 ^ 63 ≤ z ∧ z < 2 ^ 64) := by
      simp only [List.mem_cons, List.not_mem_nil, or_false] at ht
      rcases ht with rfl | rfl | rfl | rfl | rfl | rfl | rfl | rfl
      all_goals
        simp only [inType] at hfit
        refine ⟨_, rfl, ?_⟩
        refine ⟨?_, ?_, fun z hz => by have := hfit z hz; omega⟩
        · first
            | exact Or.inl rfl
            | exact Or.inr fun z hz => by have := hfit z hz; omega
        · first
            | exact Or.inl rfl
            | exact Or.inr fun z hz => by have := hfit z hz; omega
    obtain ⟨st, e1, e2, _⟩ := key signed h1 h2 h3
    obtain ⟨f1, f2⟩ := fin t st e2
    refine ⟨t, st.discrs.map (setType t), ?_, f1, f2, hfit, by simp, by simp⟩
    unfold determineDiscriminants
    rw [hs]; dsimp only; rw [e1]; rfl
  | none =>
    simp only [Option.getD_none, inType] at hfit
    obtain ⟨st, e1, e2, e3, e4, e5, e6⟩ := key true (.inr fun z hz => (hfit z hz).2) (.inl rfl)
      fun z hz => by have := hfit z hz; omega
    have hlo : -2 ^ 63 ≤ st.minValue := by
      rcases e5 with h | h
      · omega
      · exact (hfit _ h).1
    have hhi : (st.maxValue : Int) < 2 ^ 63 := by
      rcases e6 with h | h
      · omega
      · exact (hfit _ h).2
    obtain ⟨t, c1, c2, c3⟩ := chooseType_spec e3 hlo hhi
    obtain ⟨f1, f2⟩ := fin t st e2
    have hin : inType st.minValue t ∧ inType st.maxValue t := by
      refine (c3 t c2).2 ?_
      simp only [List.mem_cons, List.not_mem_nil, or_false] at c2
      rcases c2 with rfl | rfl | rfl | rfl <;> simp
    refine ⟨t, st.discrs.map (setType t), ?_, f1, f2, ?_, by simp, fun _ => ⟨c2, ?_⟩⟩
    · unfold determineDiscriminants
      simp only [signedType]; rw [e1]
      simp only [Res.bind_ok, c1]
    · intro z hz
      have := e4 z hz
      simp only [List.mem_cons, List.not_mem_nil, or_false] at c2
      rcases c2 with rfl | rfl | rfl | rfl <;> simp only [inType] at hin ⊢ <;> omega
    · intro t' ht' hall
      have zero : inType 0 t' := by
        simp only [List.mem_cons, List.not_mem_nil, or_false] at ht'
        rcases ht' with rfl | rfl | rfl | rfl <;> decide
      have h' : inType st.minValue t' ∧ inType st.maxValue t' := by
        constructor
        · rcases e5 with h | h
          · rw [h]; exact zero
          · exact hall _ h
        · rcases e6 with h | h
          · rw [h]; exact zero
          · exact hall _ h
      have := (c3 t' ht').1 h'
      intro z hz
      simp only [List.mem_cons, List.not_mem_nil, or_false] at c2 ht'
      rcases c2 with rfl | rfl | rfl | rfl <;> rcases ht' with rfl | rfl | rfl | rfl <;>
        simp_all [inType] <;> omega

/-- `enum E { A = -3, B, C = 200, D }`: `D` is 201 and the type has 16 bits. -/
example : determineDiscriminants none [some (.int (-3) .decimal .int64), none,
      some (.uint 200 .decimal .uint64), none] =
    .ok (.int16, [.int (-3) .decimal .int16, .int (-2) .decimal .int16,
      .uint 200 .decimal .int16, .uint 201 .decimal .int16]) ∧
    rustDiscrs none [some (-3), none, some 200, none] = [-3, -2, 200, 201] ∧
    listMeaning (optMeaning (intMeaning · .uint64)) [some (-3), none, some 200, none] =
      some [some (.int (-3) .decimal .int64), none, some (.uint 200 .decimal .uint64), none] := by
  decide

/-- An enum without a declared type whose discriminants need more than 64 signed bits is rejected,
it is not given a type that is too small. -/
theorem C47_too_wide (ds : List (Option Int)) (ms : List (Option MLit)) (t : MTy) (ls : List MLit)
    (hm : listMeaning (optMeaning (intMeaning · .uint64)) ds = some ms)
    (hok : determineDiscriminants none ms = .ok (t, ls)) :
    ∀ l ∈ ls, ∃ z, litValue l = some z ∧ inType z t := by
  unfold determineDiscriminants at hok
  simp only [signedType] at hok
  cases hst : discrLoop true { maxValue := 0, minValue := 0, discrs := [] } ms with
  | err => rw [hst] at hok; simp [Res.bind] at hok
  | panic => rw [hst] at hok; simp [Res.bind] at hok
  | ok st =>
    rw [hst] at hok
    simp only [Res.bind_ok] at hok
    have inv := discrLoop_inv true ms { maxValue := 0, minValue := 0, discrs := [] } st
      (listMeaning_lower hm) hst ⟨by decide, by decide, by simp⟩
    cases hc : chooseType st.minValue st.maxValue with
    | err => rw [hc] at hok; simp [Res.bind] at hok
    | panic => rw [hc] at hok; simp [Res.bind] at hok
    | ok t' =>
      rw [hc] at hok
      simp only [Res.bind_ok, Res.ok.injEq, Prod.mk.injEq] at hok
      obtain ⟨rfl, rfl⟩ := hok
      intro l hl
      obtain ⟨l', hl', rfl⟩ := List.mem_map.1 hl
      obtain ⟨z, hz, h1, h2⟩ := inv.2.2 l' hl'
      refine ⟨z, by rw [litValue_setType, hz], ?_⟩
      have i1 := inv.1
      have i2 := inv.2.1
      unfold chooseType at hc
      split at hc
      · cases hc; simp only [inType]; omega
      · split at hc
        · cases hc; simp only [inType]; omega
        · split at hc
          · cases hc; simp only [inType]; omega
          · split at hc
            · cases hc; simp only [inType]; omega
            · simp at hc

/-- Such an enum is rejected. -/
example : determineDiscriminants none [some (.uint 9223372036854775808 .decimal .uint64)] = .err := by
  decide

/-- The generators for Kotlin, Swift and Ruby: each variant gets the discriminant Rust gives it,
provided those that are not written in the source are below `2 ^ 63`. -/
theorem C47_legacy_partial (ds : List (Option Int)) (ms : List (Option MLit))
    (hm : listMeaning (optMeaning (intMeaning · .uint64)) ds = some ms)
    (hfit : ∀ z ∈ rustDiscrs none ds, -2 ^ 63 ≤ z ∧ z < 2 ^ 64)
    (himp : ∀ i : Nat, ds[i]? = some none → ∀ z, (rustDiscrs none ds)[i]? = some z → z < 2 ^ 63) :
    ∃ ls, variantDiscrs 0 ms = .ok ls ∧ ls.map litValue = (rustDiscrs none ds).map some :=
  variantDiscrs_spec ms ds none 0 (listMeaning_discrs hm).1 rfl hfit
    (implicitValues_lt ds none himp)

example : variantDiscrs 0 [some (.int (-3) .decimal .int64), none,
      some (.uint 200 .decimal .uint64), none] =
    .ok [.int (-3) .decimal .int64, .int (-2) .decimal .int64, .uint 200 .decimal .uint64,
      .uint 201 .decimal .uint64] := by decide

/-- The condition on discriminants that are not written is needed: for
`#[repr(u64)] enum E { A = 9223372036854775807, B }` Rust makes `B` equal to `2 ^ 63`, the older
generators make it `-2 ^ 63`. -/
theorem C47_legacy_broken :
    listMeaning (optMeaning (intMeaning · .uint64)) [some 9223372036854775807, none] =
      some [some (.uint 9223372036854775807 .decimal .uint64), none] ∧
    (∀ z ∈ rustDiscrs none [some 9223372036854775807, none], inType z .uint64) ∧
    rustDiscrs none [some 9223372036854775807, none] = [9223372036854775807, 9223372036854775808] ∧
    variantDiscrs 0 [some (.uint 9223372036854775807 .decimal .uint64), none] =
      .ok [.uint 9223372036854775807 .decimal .uint64, .int (-9223372036854775808) .decimal .int64] ∧
    determineDiscriminants (some .uint64) [some (.uint 9223372036854775807 .decimal .uint64), none] =
      .ok (.uint64, [.uint 9223372036854775807 .decimal .uint64,
        .uint 9223372036854775808 .decimal .uint64]) := by
  decide

/-- From the source to the bindings: the metadata of an enum leads to the discriminants of the Rust
enum. -/
theorem C47_enum (m n o : _) (dt : Option RTy) (vs : List VariantSrc) (ne : Bool) (d : String)
    (c c1 c2 : UInt16) (md : Metadata)
    (hmd : (Item.enum m n o dt vs ne d).meaning c c1 c2 = some md)
    (hr : ∀ t, dt = some t → t ∈ [RTy.u8, .u16, .u32, .u64, .i8, .i16, .i32, .i64])
    (hfit : ∀ z ∈ rustDiscrs none (vs.map (·.discr)), inType z ((dt.map RTy.toMeta).getD .int64)) :
    ∃ (ty : Option MTy) (vs' : List MVariant) (t : MTy) (ls : List MLit),
      md = .enum m n o .enum ty vs' ne (docOf d) ∧
      determineDiscriminants ty (vs'.map (·.discr)) = .ok (t, ls) ∧
      ls.map litValue = (rustDiscrs none (vs.map (·.discr))).map some ∧
      vs'.map (·.name) = vs.map (·.name) := by
  simp only [Item.meaning, Option.map_eq_some_iff] at hmd
  obtain ⟨vs', hvs, rfl⟩ := hmd
  obtain ⟨h1, h2⟩ := variants_discrs hvs
  obtain ⟨t, ls, e1, e2, _⟩ := C47_pipeline (dt.map RTy.toMeta) _ _ h1 (by
    intro t ht
    obtain ⟨t', ht', rfl⟩ := Option.map_eq_some_iff.1 ht
    have := hr t' ht'
    simp only [List.mem_cons, List.not_mem_nil, or_false] at this
    rcases this with rfl | rfl | rfl | rfl | rfl | rfl | rfl | rfl <;> simp [RTy.toMeta]) hfit
  exact ⟨_, vs', t, ls, rfl, e1, e2, h2⟩

/-- A concrete enum that meets the hypotheses. -/
example : (Item.enum "krate" "E" none (some .u8)
      [⟨"A", none, some 4, [], ""⟩, ⟨"B", none, none, [], ""⟩] false "").meaning 0 0 0 =
    some (.enum "krate" "E" none .enum (some .uint8)
      [⟨"A", none, some (.uint 4 .decimal .uint64), [], none⟩, ⟨"B", none, none, [], none⟩]
      false none) ∧ rustDiscrs none [some 4, none] = [4, 5] := by
  decide +kernel

end Verif.Props.Discr
