import Verif.Gen.Discr
import Verif.Gen.DiscrSpec
import Verif.Meta.Spec
namespace Verif.Gen
open Verif Verif.Meta

@[simp] theorem Res.bind_ok {α β : Type} (a : α) (f : α → Res β) : (Res.ok a).bind f = f a := rfl

/-- The value given to an implicit discriminant. -/
def nextValue : Option Int → Int
  | none => 0
  | some p => p + 1

theorem rustDiscrs_none (prev : Option Int) (ds : List (Option Int)) :
    rustDiscrs prev (none :: ds) = nextValue prev :: rustDiscrs (some (nextValue prev)) ds := by
  cases prev <;> rfl

theorem rustDiscrs_some (prev : Option Int) (z : Int) (ds : List (Option Int)) :
    rustDiscrs prev (some z :: ds) = z :: rustDiscrs (some z) ds := rfl

/-- Literals for numbers that are not negative may be signed only when `signed` is set. -/
def goodLit (signed : Bool) (l : MLit) : Prop :=
  litValue l ≠ none ∧ (signed = false → ∀ z r t, l = .int z r t → z < 0)

theorem nextDiscr_spec (signed : Bool) (discrs : List MLit) (prev : Option Int)
    (hp : (discrs.getLast?).map litValue = prev.map some)
    (hg : ∀ l ∈ discrs, goodLit signed l)
    (h1 : -2 ^ 63 ≤ nextValue prev ∧ nextValue prev < 2 ^ 64)
    (h2 : signed = false ∨ nextValue prev < 2 ^ 63)
    (h3 : signed = true ∨ 0 ≤ nextValue prev ∧ ∀ p, prev = some p → 0 ≤ p) :
    ∃ l, nextDiscr signed discrs none = .ok l ∧ litValue l = some (nextValue prev) ∧
      goodLit signed l := by
  unfold nextDiscr
  cases hl : discrs.getLast? with
  | none =>
    rw [hl] at hp
    cases prev with
    | some p => simp at hp
    | none =>
      cases signed
      · exact ⟨_, rfl, by simp [litValue, nextValue], by simp [goodLit, litValue]⟩
      · exact ⟨_, rfl, by simp [litValue, nextValue], by simp [goodLit, litValue]⟩
  | some l =>
    rw [hl] at hp
    cases prev with
    | none => simp at hp
    | some p =>
      have hmem : l ∈ discrs := List.mem_of_getLast? hl
      have hgl := hg l hmem
      simp only [Option.map_some, Option.some.injEq] at hp
      simp only [nextValue] at h1 h2 h3 ⊢
      cases l with
      | uint v r t =>
        simp only [litValue, Option.some.injEq] at hp
        have hv : v + 1 < 2 ^ 64 := by omega
        simp only [succU64, if_pos hv, Res.bind_ok]
        exact ⟨_, rfl, by simp [litValue, ← hp], by simp [goodLit, litValue]⟩
      | int v r t =>
        simp only [litValue, Option.some.injEq] at hp
        have hs : signed = true := by
          cases signed with
          | true => rfl
          | false =>
            have := hgl.2 rfl v r t rfl
            have := h3.resolve_left (by simp)
            have := this.2 p rfl
            omega
        subst hs
        have hv : v + 1 < 2 ^ 63 := by
          have := h2.resolve_left (by simp)
          omega
        simp only [succI64, if_pos hv, Res.bind_ok]
        exact ⟨_, rfl, by simp [litValue, ← hp], by simp [goodLit, litValue]⟩
      | _ => simp [litValue] at hp

theorem discrStep_spec (signed : Bool) (st : DiscrSt) (m : Option MLit) (l : MLit) (z : Int)
    (h : nextDiscr signed st.discrs m = .ok l) (hz : litValue l = some z)
    (h0 : st.minValue ≤ 0) :
    ∃ st1, discrStep signed st m = .ok st1 ∧ st1.discrs = st.discrs ++ [l] ∧
      st1.minValue ≤ st.minValue ∧ st.maxValue ≤ st1.maxValue ∧
      (st1.minValue ≤ z ∧ z ≤ st1.maxValue) ∧
      (st1.minValue = st.minValue ∨ st1.minValue = z) ∧
      (st1.maxValue = st.maxValue ∨ (st1.maxValue : Int) = z) := by
  unfold discrStep
  rw [h, Res.bind_ok]
  cases l with
  | uint v r t =>
    simp only [litValue, Option.some.injEq] at hz
    refine ⟨_, rfl, rfl, ?_⟩
    dsimp only
    omega
  | int v r t =>
    simp only [litValue, Option.some.injEq] at hz
    dsimp only
    by_cases hv : v ≥ 0
    · rw [if_pos hv]
      refine ⟨_, rfl, rfl, ?_⟩
      dsimp only
      omega
    · rw [if_neg hv]
      refine ⟨_, rfl, rfl, ?_⟩
      dsimp only
      omega
  | _ => simp [litValue] at hz

/-- The loop of `determine_discriminants` follows Rust's rule. -/
theorem discrLoop_spec (signed : Bool) (ms : List (Option MLit)) :
    ∀ (st : DiscrSt) (ds : List (Option Int)) (prev : Option Int),
      ms.map (Option.map litValue) = ds.map (Option.map some) →
      (∀ l, some l ∈ ms → goodLit signed l) →
      (st.discrs.getLast?).map litValue = prev.map some →
      (∀ l ∈ st.discrs, goodLit signed l) →
      st.minValue ≤ 0 →
      (∀ z ∈ rustDiscrs prev ds, -2 ^ 63 ≤ z ∧ z < 2 ^ 64) →
      (signed = false ∨ ∀ z ∈ rustDiscrs prev ds, z < 2 ^ 63) →
      (signed = true ∨ (∀ z ∈ rustDiscrs prev ds, 0 ≤ z) ∧ ∀ p, prev = some p → 0 ≤ p) →
      ∃ st', discrLoop signed st ms = .ok st' ∧
        st'.discrs.map litValue = st.discrs.map litValue ++ (rustDiscrs prev ds).map some ∧
        st'.minValue ≤ st.minValue ∧ st.maxValue ≤ st'.maxValue ∧
        (∀ z ∈ rustDiscrs prev ds, st'.minValue ≤ z ∧ z ≤ st'.maxValue) ∧
        (st'.minValue = st.minValue ∨ st'.minValue ∈ rustDiscrs prev ds) ∧
        (st'.maxValue = st.maxValue ∨ (st'.maxValue : Int) ∈ rustDiscrs prev ds) := by
  induction ms with
  | nil =>
    intro st ds prev hm _ _ _ _ _ _ _
    cases ds with
    | cons d ds => simp at hm
    | nil => exact ⟨st, rfl, by simp [rustDiscrs]⟩
  | cons m ms ih =>
    intro st ds prev hm hgm hp hg h0 h1 h2 h3
    cases ds with
    | nil => simp at hm
    | cons d ds =>
      simp only [List.map_cons, List.cons.injEq] at hm
      obtain ⟨hmd, hm⟩ := hm
      -- the value of this variant
      obtain ⟨z, l, hr, hn, hz, hgl⟩ : ∃ z l, rustDiscrs prev (d :: ds) = z :: rustDiscrs (some z) ds ∧
          nextDiscr signed st.discrs m = .ok l ∧ litValue l = some z ∧ goodLit signed l := by
        cases d with
        | none =>
          cases m with
          | some l => simp at hmd
          | none =>
            rw [rustDiscrs_none] at h1 h2 h3
            obtain ⟨l, a, b, c⟩ := nextDiscr_spec signed st.discrs prev hp hg
              (h1 _ (by simp)) (h2.imp id fun h => h _ (by simp))
              (h3.imp id fun h => ⟨h.1 _ (by simp), h.2⟩)
            exact ⟨_, l, rustDiscrs_none _ _, a, b, c⟩
        | some z =>
          cases m with
          | none => simp at hmd
          | some l =>
            simp only [Option.map_some, Option.some.injEq] at hmd
            exact ⟨z, l, rfl, rfl, hmd, hgm l (by simp)⟩
      rw [hr] at h1 h2 h3 ⊢
      obtain ⟨st1, e1, e2, e3, e4, e5, e6, e7⟩ := discrStep_spec signed st m l z hn hz h0
      obtain ⟨st', f1, f2, f3, f4, f5, f6, f7⟩ := ih st1 ds (some z) hm
        (fun l hl => hgm l (by simp [hl]))
        (by rw [e2]; simp [hz])
        (by rw [e2]; intro l' hl'; rcases List.mem_append.1 hl' with h | h
            · exact hg _ h
            · rw [List.mem_singleton.1 h]; exact hgl)
        (by omega)
        (fun y hy => h1 y (by simp [hy]))
        (h2.imp id fun h y hy => h y (by simp [hy]))
        (h3.imp id fun h => ⟨fun y hy => h.1 y (by simp [hy]), by
          intro p hp; cases hp; exact h.1 _ (by simp)⟩)
      refine ⟨st', ?_, ?_, by omega, by omega, ?_, ?_, ?_⟩
      · unfold discrLoop; rw [e1]; exact f1
      · rw [f2, e2]; simp [hz]
      · intro y hy
        rcases List.mem_cons.1 hy with rfl | hy
        · omega
        · exact f5 y hy
      · rcases f6 with h | h
        · rw [h]
          rcases e6 with h | h
          · exact .inl h
          · right; rw [h]; simp
        · right; simp [h]
      · rcases f7 with h | h
        · rw [h]
          rcases e7 with h | h
          · exact .inl h
          · right; rw [h]; simp
        · right; simp [h]

/-- What the metadata of explicit discriminants looks like. -/
theorem intMeaning_uint64 {z : Int} {l : MLit} (h : intMeaning z .uint64 = some l) :
    litValue l = some z ∧ ∀ y r t, l = .int y r t → y < 0 := by
  simp only [intMeaning] at h
  split at h
  · cases h
    refine ⟨?_, by intro y r t h; cases h⟩
    simp only [litValue, Option.some.injEq]; omega
  · split at h
    · cases h
      refine ⟨rfl, ?_⟩
      intro y r t h; cases h; omega
    · simp at h

theorem listMeaning_discrs {ds : List (Option Int)} : ∀ {ms : List (Option MLit)},
    listMeaning (optMeaning (intMeaning · .uint64)) ds = some ms →
    ms.map (Option.map litValue) = ds.map (Option.map some) ∧
      ∀ l, some l ∈ ms → litValue l ≠ none ∧ ∀ y r t, l = .int y r t → y < 0 := by
  induction ds with
  | nil => intro ms h; simp [listMeaning] at h; subst h; simp
  | cons d ds ih =>
    intro ms h
    unfold listMeaning at h
    cases hd : optMeaning (intMeaning · .uint64) d with
    | none => rw [hd] at h; simp at h
    | some m =>
      cases hr : listMeaning (optMeaning (intMeaning · .uint64)) ds with
      | none => rw [hd, hr] at h; simp at h
      | some ms' =>
        rw [hd, hr] at h
        simp at h
        subst h
        obtain ⟨i1, i2⟩ := ih hr
        cases d with
        | none =>
          simp [optMeaning] at hd; subst hd
          refine ⟨by simp [i1], ?_⟩
          intro l hl
          simp at hl
          exact i2 l hl
        | some z =>
          simp only [optMeaning, Option.map_eq_some_iff] at hd
          obtain ⟨l, hl, rfl⟩ := hd
          have := intMeaning_uint64 hl
          refine ⟨by simp [i1, this.1], ?_⟩
          intro l' hl'
          simp at hl'
          rcases hl' with rfl | hl'
          · exact ⟨by rw [this.1]; simp, this.2⟩
          · exact i2 l' hl'

theorem chooseType_spec {lo : Int} {hi : Nat} (h : lo ≤ 0) (h1 : -2 ^ 63 ≤ lo) (h2 : (hi : Int) < 2 ^ 63) :
    ∃ t, chooseType lo hi = .ok t ∧ t ∈ [MTy.int8, .int16, .int32, .int64] ∧
      ∀ t' ∈ [MTy.int8, .int16, .int32, .int64], (inType lo t' ∧ inType hi t') ↔
        (t = .int8 ∨ t = .int16 ∧ t' ≠ .int8 ∨ t = .int32 ∧ t' ≠ .int8 ∧ t' ≠ .int16 ∨
          t = .int64 ∧ t' = .int64) := by
  unfold chooseType
  split
  · refine ⟨_, rfl, by simp, ?_⟩
    simp [inType]; omega
  · split
    · refine ⟨_, rfl, by simp, ?_⟩
      simp [inType]; omega
    · split
      · refine ⟨_, rfl, by simp, ?_⟩
        simp [inType]; omega
      · split
        · refine ⟨_, rfl, by simp, ?_⟩
          simp [inType]; omega
        · omega

theorem litValue_setType (t : MTy) (l : MLit) : litValue (setType t l) = litValue l := by
  cases l <;> rfl

theorem litType_setType (t : MTy) {l : MLit} (h : litValue l ≠ none) :
    litType (setType t l) = some t := by
  cases l <;> simp_all [litValue, litType, setType]

/-- Literals in the metadata are `i64` or `u64` values. -/
theorem listMeaning_lower {ds : List (Option Int)} : ∀ {ms : List (Option MLit)},
    listMeaning (optMeaning (intMeaning · .uint64)) ds = some ms →
    ∀ l, some l ∈ ms → ∃ z, litValue l = some z ∧ -2 ^ 63 ≤ z := by
  induction ds with
  | nil => intro ms h; simp [listMeaning] at h; subst h; simp
  | cons d ds ih =>
    intro ms h l hl
    unfold listMeaning at h
    cases hd : optMeaning (intMeaning · .uint64) d with
    | none => rw [hd] at h; simp at h
    | some m =>
      cases hr : listMeaning (optMeaning (intMeaning · .uint64)) ds with
      | none => rw [hd, hr] at h; simp at h
      | some ms' =>
        rw [hd, hr] at h
        simp at h
        subst h
        rcases List.mem_cons.1 hl with rfl | hl
        · cases d with
          | none => simp [optMeaning] at hd
          | some z =>
            simp only [optMeaning, Option.map_eq_some_iff, Option.some.injEq, exists_eq_right] at hd
            refine ⟨z, (intMeaning_uint64 hd).1, ?_⟩
            simp only [intMeaning] at hd
            split at hd
            · omega
            · split at hd
              · omega
              · simp at hd
        · exact ih hr l hl

/-- The bounds kept by the loop. -/
def BoundsOk (st : DiscrSt) : Prop :=
  st.minValue ≤ 0 ∧ -2 ^ 63 ≤ st.minValue ∧
    ∀ l ∈ st.discrs, ∃ z, litValue l = some z ∧ st.minValue ≤ z ∧ z ≤ st.maxValue

theorem nextDiscr_lower {signed : Bool} {discrs : List MLit} {m : Option MLit} {l : MLit}
    (h : nextDiscr signed discrs m = .ok l)
    (hm : ∀ l, m = some l → ∃ z, litValue l = some z ∧ -2 ^ 63 ≤ z)
    (hd : ∀ l ∈ discrs, ∃ z, litValue l = some z ∧ -2 ^ 63 ≤ z) :
    ∃ z, litValue l = some z ∧ -2 ^ 63 ≤ z := by
  cases m with
  | some l' => simp only [nextDiscr, Res.ok.injEq] at h; subst h; exact hm _ rfl
  | none =>
    simp only [nextDiscr] at h
    cases hl : discrs.getLast? with
    | none =>
      rw [hl] at h
      simp only [Res.ok.injEq] at h
      subst h
      cases signed
      · exact ⟨0, by simp [litValue], by omega⟩
      · exact ⟨0, by simp [litValue], by omega⟩
    | some l' =>
      rw [hl] at h
      obtain ⟨z, hz, hb⟩ := hd l' (List.mem_of_getLast? hl)
      cases l' with
      | uint v r t =>
        simp only [succU64] at h
        split at h
        · simp only [Res.bind_ok, Res.ok.injEq] at h
          subst h
          exact ⟨_, rfl, by omega⟩
        · simp [Res.bind] at h
      | int v r t =>
        simp only [litValue, Option.some.injEq] at hz
        simp only [succI64] at h
        split at h
        · simp only [Res.bind_ok, Res.ok.injEq] at h
          subst h
          exact ⟨_, rfl, by omega⟩
        · simp [Res.bind] at h
      | _ => simp [litValue] at hz

theorem discrLoop_inv (signed : Bool) (ms : List (Option MLit)) :
    ∀ (st st' : DiscrSt), (∀ l, some l ∈ ms → ∃ z, litValue l = some z ∧ -2 ^ 63 ≤ z) →
      discrLoop signed st ms = .ok st' → BoundsOk st → BoundsOk st' := by
  induction ms with
  | nil => intro st st' _ h hb; simp only [discrLoop, Res.ok.injEq] at h; subst h; exact hb
  | cons m ms ih =>
    intro st st' hm h hb
    unfold discrLoop at h
    cases hn : nextDiscr signed st.discrs m with
    | err => simp [discrStep, hn, Res.bind] at h
    | panic => simp [discrStep, hn, Res.bind] at h
    | ok l =>
      obtain ⟨z, hz, hzl⟩ := nextDiscr_lower hn (fun l hl => hm l (by simp [hl]))
        (fun l hl => by
          obtain ⟨z, a, b, c⟩ := hb.2.2 l hl
          exact ⟨z, a, by have := hb.2.1; omega⟩)
      obtain ⟨st1, e1, e2, e3, e4, e5, e6, e7⟩ := discrStep_spec signed st m l z hn hz hb.1
      rw [e1, Res.bind_ok] at h
      refine ih st1 st' (fun l hl => hm l (by simp [hl])) h ⟨by have := hb.1; omega, ?_, ?_⟩
      · have := hb.2.1; rcases e6 with h | h <;> omega
      · intro l' hl'
        rw [e2] at hl'
        rcases List.mem_append.1 hl' with h | h
        · obtain ⟨y, a, b, c⟩ := hb.2.2 l' h
          exact ⟨y, a, by omega, by omega⟩
        · rw [List.mem_singleton.1 h]
          exact ⟨z, hz, e5⟩

theorem variants_discrs {vs : List VariantSrc} : ∀ {vs' : List MVariant},
    listMeaning VariantSrc.meaning vs = some vs' →
    listMeaning (optMeaning (intMeaning · .uint64)) (vs.map (·.discr)) = some (vs'.map (·.discr)) ∧
      vs'.map (·.name) = vs.map (·.name) := by
  induction vs with
  | nil => intro vs' h; simp [listMeaning] at h; subst h; simp [listMeaning]
  | cons v vs ih =>
    intro vs' h
    simp only [listMeaning, Option.bind_eq_some_iff, Option.map_eq_some_iff] at h
    obtain ⟨v', hv, vs'', hvs, rfl⟩ := h
    obtain ⟨i1, i2⟩ := ih hvs
    simp only [VariantSrc.meaning, Option.bind_eq_some_iff, Option.map_eq_some_iff] at hv
    obtain ⟨d, hd, fs, hf, rfl⟩ := hv
    simp only [List.map_cons, listMeaning, hd, i1, i2, Option.bind_some, Option.map_some]
    exact ⟨trivial, trivial⟩

/-! The older generators -/

/-- Is the discriminant of a variant explicit? Its value. -/
def implicitValues (prev : Option Int) : List (Option Int) → List Int
  | [] => []
  | some z :: ds => implicitValues (some z) ds
  | none :: ds => nextValue prev :: implicitValues (some (nextValue prev)) ds

theorem implicitValues_lt (ds : List (Option Int)) : ∀ (prev : Option Int),
    (∀ i : Nat, ds[i]? = some none → ∀ z, (rustDiscrs prev ds)[i]? = some z → z < 2 ^ 63) →
    ∀ z ∈ implicitValues prev ds, z < 2 ^ 63 := by
  induction ds with
  | nil => intro prev _ z hz; simp [implicitValues] at hz
  | cons d ds ih =>
    intro prev h z hz
    cases d with
    | none =>
      rw [rustDiscrs_none] at h
      unfold implicitValues at hz
      rcases List.mem_cons.1 hz with rfl | hz
      · exact h 0 rfl _ rfl
      · exact ih _ (fun i hi y hy => h (i + 1) (by simpa using hi) y (by simpa using hy)) z hz
    | some y =>
      rw [rustDiscrs_some] at h
      unfold implicitValues at hz
      exact ih _ (fun i hi y hy => h (i + 1) (by simpa using hi) y (by simpa using hy)) z hz

theorem asU64_next {z : Int} (h : -2 ^ 63 ≤ z ∧ z < 2 ^ 64) :
    ((asU64 z + 1) % 2 ^ 64 : Nat) = asU64 (z + 1) := by
  unfold asU64; omega

theorem asI64_asU64 {z : Int} (h : -2 ^ 63 ≤ z ∧ z < 2 ^ 63) : asI64 (asU64 z) = z := by
  unfold asU64 asI64; split <;> omega

theorem variantDiscrs_spec (ms : List (Option MLit)) :
    ∀ (ds : List (Option Int)) (prev : Option Int) (next : Nat),
      ms.map (Option.map litValue) = ds.map (Option.map some) →
      next = asU64 (nextValue prev) →
      (∀ z ∈ rustDiscrs prev ds, -2 ^ 63 ≤ z ∧ z < 2 ^ 64) →
      (∀ z ∈ implicitValues prev ds, z < 2 ^ 63) →
      ∃ ls, variantDiscrs next ms = .ok ls ∧ ls.map litValue = (rustDiscrs prev ds).map some := by
  induction ms with
  | nil =>
    intro ds prev next hm _ _ _
    cases ds with
    | nil => exact ⟨[], rfl, rfl⟩
    | cons d ds => simp at hm
  | cons m ms ih =>
    intro ds prev next hm hn h1 h2
    cases ds with
    | nil => simp at hm
    | cons d ds =>
      simp only [List.map_cons, List.cons.injEq] at hm
      obtain ⟨hmd, hm⟩ := hm
      cases d with
      | none =>
        cases m with
        | some l => simp at hmd
        | none =>
          rw [rustDiscrs_none] at h1 ⊢
          unfold implicitValues at h2
          have b := h1 _ (List.mem_cons_self ..)
          have c := h2 _ (List.mem_cons_self ..)
          obtain ⟨ls, e, f⟩ := ih ds (some (nextValue prev)) ((next + 1) % 2 ^ 64) hm
            (by rw [hn, asU64_next b]; rfl)
            (fun z hz => h1 z (by simp [hz])) (fun z hz => h2 z (by simp [hz]))
          unfold variantDiscrs
          simp only [Res.bind_ok]
          rw [e]
          refine ⟨_, rfl, ?_⟩
          rw [List.map_cons, List.map_cons, f]
          congr 1
          have hi : asI64 next = nextValue prev := by rw [hn, asI64_asU64 ⟨b.1, c⟩]
          rw [hi]
          split
          · rfl
          · simp only [litValue, Option.some.injEq]
            rw [hn]; unfold asU64; omega
      | some z =>
        cases m with
        | none => simp at hmd
        | some l =>
          simp only [Option.map_some, Option.some.injEq] at hmd
          rw [rustDiscrs_some] at h1 ⊢
          unfold implicitValues at h2
          have b := h1 _ (List.mem_cons_self ..)
          cases l with
          | uint v r t =>
            simp only [litValue, Option.some.injEq] at hmd
            obtain ⟨ls, e, f⟩ := ih ds (some z) ((v + 1) % 2 ^ 64) hm
              (by show _ = asU64 (z + 1); rw [← asU64_next b]; subst hmd; unfold asU64; omega)
              (fun z hz => h1 z (by simp [hz])) h2
            unfold variantDiscrs
            simp only [Res.bind_ok]
            rw [e]
            exact ⟨_, rfl, by simp [f, litValue, hmd]⟩
          | int v r t =>
            simp only [litValue, Option.some.injEq] at hmd
            subst hmd
            obtain ⟨ls, e, f⟩ := ih ds (some v) ((asU64 v + 1) % 2 ^ 64) hm
              (by show _ = asU64 (v + 1); rw [asU64_next b])
              (fun z hz => h1 z (by simp [hz])) h2
            unfold variantDiscrs
            simp only [Res.bind_ok]
            rw [e]
            exact ⟨_, rfl, by simp [f, litValue]⟩
          | _ => simp [litValue] at hmd

end Verif.Gen
