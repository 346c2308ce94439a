import Verif.Jni.LayoutLemmas
import Verif.Props.Sort
/-
C70: values in the buffers shared by Kotlin (JNI) and Rust have places of their own.
-/
namespace Verif.Props.JniLayout
open Verif.Jni

/-- No two definitions have the same name, also not in different namespaces. -/
def DistinctNames (nss : List (List TypeDef)) : Prop := (nss.flatten.map TypeDef.itemName).Nodup

instance (nss : List (List TypeDef)) : Decidable (DistinctNames nss) :=
  inferInstanceAs (Decidable (List.Nodup _))

theorem layouts_spec {nss : List (List TypeDef)} {m : LayoutMap} (e : layouts nss = some m)
    (hn : DistinctNames nss) :
    m.Good ∧ ∀ d ∈ nss.flatten, ∃ m0 m1 : LayoutMap,
      m0.Good ∧ m0 d.self = none ∧ m0.addDef d = some m1 ∧ m0.Le m ∧ m1.Le m := by
  unfold layouts sortDefs at e
  obtain ⟨res, h1, hp⟩ := Verif.Props.Sort.C45_permutation TypeDef.itemName TypeDef.depNames _ hn
  rw [h1] at e
  have hn' : (res.map TypeDef.itemName).Nodup := (hp.map _).nodup_iff.1 hn
  have hs : (res.map TypeDef.self).Nodup := by
    have : (res.map TypeDef.self).map canonicalName = res.map TypeDef.itemName := by
      simp [TypeDef.itemName]
    rw [← this] at hn'
    exact (List.pairwise_map.1 hn').imp fun hne he => hne (congrArg _ he)
  obtain ⟨a, b⟩ := layoutsOf_spec (ds := res) (by simpa using e) hs
  exact ⟨a, fun d hd => b d (hp.subset hd)⟩

/-- Every layout is aligned to a divisor of 8, the alignment of every buffer that is allocated. -/
theorem C70_alignment (nss : List (List TypeDef)) (m : LayoutMap) (h : layouts nss = some m)
    (hn : DistinctNames nss) (t : Ty) (l : Layout) (ht : m.get t = some l) : l.align ∣ 8 :=
  ((layouts_spec h hn).1.get _ _ ht).dvd8

/-- The fields of a record have places of their own inside the place of the record. -/
theorem C70_record (nss : List (List TypeDef)) (m : LayoutMap) (h : layouts nss = some m)
    (hn : DistinctNames nss) (n : Name) (fields : List Ty) (hd : .record n fields ∈ nss.flatten) :
    ∃ l offs slots, m.get (.record n) = some l ∧ m.recordOffsets fields = some offs ∧
      m.slots fields offs = some slots ∧ WellPlaced slots l.size l.align := by
  obtain ⟨hg, hall⟩ := layouts_spec h hn
  obtain ⟨m0, m1, g0, hs, ha, l0, l1⟩ := hall _ hd
  unfold LayoutMap.addDef at ha
  rw [if_neg (by rw [hs]; decide)] at ha
  simp only [Option.bind_eq_bind, Option.bind_eq_some_iff, LayoutMap.forTypes,
    Option.map_eq_some_iff] at ha
  obtain ⟨l, ⟨⟨l', offs⟩, hp, rfl⟩, e⟩ := ha
  cases e
  have hp' := l0.place _ _ _ hp
  obtain ⟨slots, s1, _, _, _, _, s2⟩ := place_spec hg _ _ _ _ empty_isAlign hp'
  refine ⟨l', offs, slots, ?_, ?_, s1, s2⟩
  · simp only [LayoutMap.get]
    exact l1 _ _ (by simp [LayoutMap.insert])
  · simp [LayoutMap.recordOffsets, hp']

/-- The discriminant (4 bytes at the start) and the fields of a variant have places of their own inside
the place of the enum. -/
theorem C70_variant (nss : List (List TypeDef)) (m : LayoutMap) (h : layouts nss = some m)
    (hn : DistinctNames nss) (n : Name) (flat : Bool) (variants : List (List Ty))
    (hd : .enum n flat variants ∈ nss.flatten) (v : List Ty) (hv : v ∈ variants) :
    ∃ l offs slots, m.get (.enum n) = some l ∧ m.variantOffsets v = some offs ∧
      m.slots v offs = some slots ∧ WellPlaced (⟨0, 4, 4⟩ :: slots) l.size l.align := by
  obtain ⟨hg, hall⟩ := layouts_spec h hn
  obtain ⟨m0, m1, g0, hs, ha, l0, l1⟩ := hall _ hd
  unfold LayoutMap.addDef at ha
  rw [if_neg (by rw [hs]; decide)] at ha
  simp only [Option.bind_eq_bind, Option.bind_eq_some_iff] at ha
  obtain ⟨l, hl, l', hm, e⟩ := ha
  cases e
  have := make_ok hm
  subst this
  have hl' := l0.variants _ _ _ hl
  obtain ⟨_, _, _, hvs⟩ := variants_spec hg _ _ _ empty_isAlign hl'
  obtain ⟨x, hx, hx1, hx2⟩ := hvs v hv
  simp only [LayoutMap.forTypes, Option.map_eq_some_iff] at hx
  obtain ⟨⟨x', offs⟩, hp, rfl⟩ := hx
  obtain ⟨slots, s1, _, _, _, _, s2⟩ := place_spec hg _ _ _ _ empty_isAlign hp
  simp only [LayoutMap.place, Option.bind_eq_bind, Option.bind_eq_some_iff] at hp
  obtain ⟨i, hi, ⟨y, o⟩, hy, ⟨z, os⟩, hz, he⟩ := hp
  simp at he
  obtain ⟨rfl, rfl⟩ := he
  simp [LayoutMap.get, Verif.Wire.IntTy.width] at hi
  subst hi
  obtain ⟨ho, hye⟩ := extend_ok hy
  have ho0 : o = 0 := by rw [ho]; rfl
  subst ho0
  simp only [LayoutMap.slots, Option.bind_eq_bind, Option.bind_eq_some_iff] at s1
  obtain ⟨i', hi', slots', hsl, hse⟩ := s1
  simp [LayoutMap.get, Verif.Wire.IntTy.width] at hi'
  subst hi'
  cases hse
  refine ⟨⟨l.size, l.align⟩, os, slots', ?_, ?_, hsl, ?_, s2.apart, ?_⟩
  · simp only [LayoutMap.get]
    exact l1 _ _ (by simp [LayoutMap.insert])
  · simp [LayoutMap.variantOffsets, LayoutMap.get, Verif.Wire.IntTy.width, hy, hz]
  · intro s hs
    exact Nat.le_trans (s2.inside s hs) hx1
  · intro s hs
    exact ⟨(s2.aligned s hs).1, Nat.dvd_trans (s2.aligned s hs).2 hx2⟩

/-- The flag of an option (1 byte at the start) and its value have places of their own. -/
theorem C70_option (nss : List (List TypeDef)) (m : LayoutMap) (h : layouts nss = some m)
    (hn : DistinctNames nss) (t : Ty) (hd : .optional t ∈ nss.flatten) :
    ∃ l off i, m.get (.option t) = some l ∧ m.someOffset t = some off ∧ m.get t = some i ∧
      WellPlaced [⟨0, 1, 1⟩, ⟨off, i.size, i.align⟩] l.size l.align := by
  obtain ⟨hg, hall⟩ := layouts_spec h hn
  obtain ⟨m0, m1, g0, hs, ha, l0, l1⟩ := hall _ hd
  unfold LayoutMap.addDef at ha
  rw [if_neg (by rw [hs]; decide)] at ha
  simp only [Option.bind_eq_bind, Option.bind_eq_some_iff, LayoutMap.forTypes,
    Option.map_eq_some_iff] at ha
  obtain ⟨l, ⟨⟨l', offs⟩, hp, rfl⟩, e⟩ := ha
  cases e
  have hp' := l0.place _ _ _ hp
  obtain ⟨slots, s1, _, _, _, _, s2⟩ := place_spec hg _ _ _ _ empty_isAlign hp'
  simp only [LayoutMap.place, Option.bind_eq_bind, Option.bind_eq_some_iff] at hp'
  obtain ⟨b, hb, ⟨y, o⟩, hy, ⟨z, os⟩, ⟨i, hi, ⟨y', o'⟩, hy', ⟨z', os'⟩, hz', he'⟩, he⟩ := hp'
  simp at he he' hz'
  obtain ⟨rfl, rfl⟩ := he
  obtain ⟨rfl, rfl⟩ := he'
  obtain ⟨rfl, rfl⟩ := hz'
  simp [LayoutMap.get] at hb
  subst hb
  obtain ⟨ho, hye⟩ := extend_ok hy
  have ho0 : o = 0 := by rw [ho]; rfl
  subst ho0
  simp [LayoutMap.slots, LayoutMap.get, hi] at s1
  subst s1
  refine ⟨_, o', i, ?_, ?_, hi, s2⟩
  · simp only [LayoutMap.get]
    exact l1 _ _ (by simp [LayoutMap.insert])
  · simp [LayoutMap.someOffset, LayoutMap.get, hy, hi, hy']

/-- The slots of `count` items that are `step` bytes apart, each starting `off` bytes into its step. -/
def itemSlots (count step off : Nat) (l : Layout) : List Slot :=
  (List.range count).map fun i => ⟨i * step + off, l.size, l.align⟩

theorem itemSlots_placed {count step off : Nat} {l : Layout} (h1 : off + l.size ≤ step)
    (h2 : l.align ∣ step) (h3 : l.align ∣ off) (h8 : l.align ∣ 8) :
    WellPlaced (itemSlots count step off l) (count * step) 8 := by
  refine ⟨?_, ?_, ?_⟩
  · intro s hs
    simp only [itemSlots, List.mem_map, List.mem_range] at hs
    obtain ⟨i, hi, rfl⟩ := hs
    have : (i + 1) * step ≤ count * step := Nat.mul_le_mul_right _ hi
    rw [Nat.add_mul] at this
    simp only
    omega
  · unfold itemSlots
    rw [List.pairwise_map]
    refine List.pairwise_lt_range.imp ?_
    intro a b hab
    have : (a + 1) * step ≤ b * step := Nat.mul_le_mul_right _ hab
    rw [Nat.add_mul] at this
    simp only
    omega
  · intro s hs
    simp only [itemSlots, List.mem_map, List.mem_range] at hs
    obtain ⟨i, hi, rfl⟩ := hs
    exact ⟨Nat.dvd_add (Nat.dvd_trans h2 ⟨i, Nat.mul_comm _ _⟩) h3, h8⟩

/-- The items of a sequence or set have places of their own in the buffer of `count * item_size` bytes
allocated for them. -/
theorem C70_items (nss : List (List TypeDef)) (m : LayoutMap) (h : layouts nss = some m)
    (hn : DistinctNames nss) (t : Ty) (step : Nat) (hs : m.itemSize t = some step) :
    ∃ l, m.get t = some l ∧ ∀ count, WellPlaced (itemSlots count step 0 l) (count * step) 8 := by
  have hg := (layouts_spec h hn).1
  simp only [LayoutMap.itemSize, Option.bind_eq_bind, Option.bind_eq_some_iff] at hs
  obtain ⟨i, hi, ⟨y, o⟩, hy, e⟩ := hs
  have ha := hg.get _ _ hi
  obtain ⟨ho, rfl⟩ := extend_ok hy
  cases e
  refine ⟨i, hi, fun count => itemSlots_placed ?_ ?_ ?_ ha.dvd8⟩
  · simp only [Layout.padToAlign]
    have hm := empty_isAlign.max ha
    have := roundUp_ge (n := o + i.size) hm.pos
    omega
  · simp only [Layout.padToAlign]
    exact Nat.dvd_trans (empty_isAlign.dvd_max_right ha) (roundUp_dvd _ _)
  · exact Nat.dvd_zero _

/-- The keys and values of a map have places of their own in the buffer allocated for it, and the key
of an entry does not overlap its value. -/
theorem C70_entries (nss : List (List TypeDef)) (m : LayoutMap) (h : layouts nss = some m)
    (hn : DistinctNames nss) (k v : Ty) (off step : Nat) (hs : m.entry k v = some (off, step)) :
    ∃ lk lv, m.get k = some lk ∧ m.get v = some lv ∧ lk.size ≤ off ∧
      ∀ count, WellPlaced (itemSlots count step 0 lk) (count * step) 8 ∧
        WellPlaced (itemSlots count step off lv) (count * step) 8 := by
  have hg := (layouts_spec h hn).1
  simp only [LayoutMap.entry, Option.bind_eq_bind, Option.bind_eq_some_iff] at hs
  obtain ⟨lk, hk, ⟨y, o⟩, hy, lv, hv, ⟨y', o'⟩, hy', e⟩ := hs
  have ak := hg.get _ _ hk
  have av := hg.get _ _ hv
  obtain ⟨ho, rfl⟩ := extend_ok hy
  obtain ⟨ho', rfl⟩ := extend_ok hy'
  obtain ⟨rfl, rfl⟩ := Prod.mk.inj (Option.some.inj e)
  have hmk := empty_isAlign.max ak
  have hm := hmk.max av
  have o0 : o = 0 := by rw [ho]; simp [Layout.empty, roundUp_of_dvd ak.pos]
  subst o0
  have hge := roundUp_ge (n := 0 + lk.size) av.pos
  simp only at ho'
  rw [← ho'] at hge
  have hst := roundUp_ge (n := o' + lv.size) hm.pos
  have hdk : lk.align ∣ max (max Layout.empty.align lk.align) lv.align :=
    Nat.dvd_trans (empty_isAlign.dvd_max_right ak) (hmk.dvd_max_left av)
  have hdv : lv.align ∣ max (max Layout.empty.align lk.align) lv.align := hmk.dvd_max_right av
  refine ⟨lk, lv, hk, hv, by omega, fun count => ⟨itemSlots_placed ?_ ?_ (Nat.dvd_zero _) ak.dvd8,
    itemSlots_placed ?_ ?_ ?_ av.dvd8⟩⟩
  · simp only [Layout.padToAlign]; omega
  · simp only [Layout.padToAlign]; exact Nat.dvd_trans hdk (roundUp_dvd _ _)
  · simp only [Layout.padToAlign]; omega
  · simp only [Layout.padToAlign]; exact Nat.dvd_trans hdv (roundUp_dvd _ _)
  · rw [ho']; exact roundUp_dvd _ _

/-- Types that are never placed in a buffer. -/
def Unplaceable : Ty → Prop
  | .bytes | .duration | .timestamp | .callback _ => True
  | .custom _ b => Unplaceable b
  | _ => False

/-- The types placed inside the values of a defined type. -/
def inlineTypes : TypeDef → List Ty
  | .record _ fields => fields
  | .enum _ _ variants => variants.flatten
  | .optional t => [t]
  | _ => []

theorem unplaceable_none {m : LayoutMap} (hm : ∀ t, Unplaceable t → m t = none) :
    ∀ t, Unplaceable t → m.get t = none := by
  intro t
  induction t with
  | custom n b ih => intro h; simp only [LayoutMap.get]; exact ih h
  | bytes | duration | timestamp | callback => intro h; simp only [LayoutMap.get]; exact hm _ h
  | _ => intro h; exact absurd h (by simp [Unplaceable])

theorem place_none {m : LayoutMap} {t : Ty} (h : m.get t = none) :
    ∀ (ts : List Ty) (l : Layout), t ∈ ts → m.place l ts = none := by
  intro ts
  induction ts with
  | nil => intro l ht; cases ht
  | cons u us ih =>
    intro l ht
    rcases List.mem_cons.1 ht with h1 | h1
    · subst h1; simp [LayoutMap.place, h]
    · simp only [LayoutMap.place, Option.bind_eq_bind]
      cases m.get u with
      | none => rfl
      | some x =>
        simp only [Option.bind_some]
        cases l.extend x with
        | none => rfl
        | some p => simp [ih p.1 h1]

theorem variants_none {m : LayoutMap} {t : Ty} (h : m.get t = none) :
    ∀ (vs : List (List Ty)) (l : Layout), t ∈ vs.flatten → m.variants l vs = none := by
  intro vs
  induction vs with
  | nil => intro l ht; cases ht
  | cons v vs ih =>
    intro l ht
    simp only [LayoutMap.variants, Option.bind_eq_bind]
    rcases List.mem_append.1 (by simpa using ht : t ∈ v ++ vs.flatten) with h1 | h1
    · have := place_none h (.int .i32 :: v) .empty (List.mem_cons_of_mem _ h1)
      simp [LayoutMap.forTypes, this]
    · cases m.forTypes (.int .i32 :: v) with
      | none => rfl
      | some x => simpa using ih _ h1

theorem addDef_unplaceable {m m' : LayoutMap} (hm : ∀ t, Unplaceable t → m t = none) {d : TypeDef}
    (e : m.addDef d = some m') : ∀ t, Unplaceable t → m' t = none := by
  intro t ht
  unfold LayoutMap.addDef at e
  split at e
  · cases e; exact hm t ht
  · cases d with
    | record n fields =>
      simp only [Option.bind_eq_bind, Option.bind_eq_some_iff] at e
      obtain ⟨l, _, h2⟩ := e
      cases h2
      simp only [LayoutMap.insert]
      rw [if_neg (by rintro rfl; exact ht)]; exact hm t ht
    | enum n f vs =>
      simp only [Option.bind_eq_bind, Option.bind_eq_some_iff] at e
      obtain ⟨l, _, _, _, h2⟩ := e
      cases h2
      simp only [LayoutMap.insert]
      rw [if_neg (by rintro rfl; exact ht)]; exact hm t ht
    | optional u =>
      simp only [Option.bind_eq_bind, Option.bind_eq_some_iff] at e
      obtain ⟨l, _, h2⟩ := e
      cases h2
      simp only [LayoutMap.insert]
      rw [if_neg (by rintro rfl; exact ht)]; exact hm t ht
    | custom | other => cases e; exact hm t ht

theorem addDefs_unplaceable : ∀ (ds : List TypeDef) {m m' : LayoutMap}, m.addDefs ds = some m' →
    (∀ t, Unplaceable t → m t = none) → ∀ t, Unplaceable t → m' t = none := by
  intro ds
  induction ds with
  | nil => intro m m' e hm; simp [LayoutMap.addDefs] at e; subst e; exact hm
  | cons d ds ih =>
    intro m m' e hm
    simp only [LayoutMap.addDefs, Option.bind_eq_bind, Option.bind_eq_some_iff] at e
    obtain ⟨m1, h1, h2⟩ := e
    exact ih h2 (addDef_unplaceable hm h1)

/-- Generation fails for every interface with a record or variant field, or an option, that holds a
`Duration`, a timestamp, bytes or a callback interface (also through a custom type). -/
theorem C70_unplaceable_rejected (nss : List (List TypeDef)) (hn : DistinctNames nss) (d : TypeDef)
    (hd : d ∈ nss.flatten) (t : Ty) (ht : t ∈ inlineTypes d) (hu : Unplaceable t) :
    layouts nss = none := by
  cases e : layouts nss with
  | none => rfl
  | some m =>
    exfalso
    obtain ⟨_, hall⟩ := layouts_spec e hn
    obtain ⟨m0, m1, g0, hs, ha, l0, l1⟩ := hall _ hd
    unfold layouts sortDefs at e
    obtain ⟨res, h1, hp⟩ := Verif.Props.Sort.C45_permutation TypeDef.itemName TypeDef.depNames _ hn
    rw [h1] at e
    have hm := addDefs_unplaceable res (m := fun _ => none) (m' := m)
      (by simpa [layoutsOf] using e) (fun _ _ => rfl)
    have h0 : m0.get t = none := by
      refine unplaceable_none (fun u hu => ?_) t hu
      cases h : m0 u with
      | none => rfl
      | some l => have := l0 _ _ h; rw [hm u hu] at this; cases this
    unfold LayoutMap.addDef at ha
    rw [if_neg (by rw [hs]; decide)] at ha
    cases d with
    | record n fields =>
      simp only [inlineTypes] at ht
      simp [LayoutMap.forTypes, place_none h0 _ _ ht] at ha
    | enum n f vs =>
      simp only [inlineTypes] at ht
      simp [variants_none h0 _ _ ht] at ha
    | optional u =>
      simp only [inlineTypes, List.mem_singleton] at ht
      subst ht
      simp [LayoutMap.forTypes, place_none h0 [.bool, t] _ (by simp)] at ha
    | custom | other => cases ht

/-- The bytes written for an error that is passed as a message: a discriminant and, 8 bytes in, a
string (`scaffolding/templates/enum.rs:192-208`, `bindings/templates/shared/EnumFfi.kt:151-159`). -/
def messageErrorSlots : List Slot := [⟨0, 4, 4⟩, ⟨8, 24, 8⟩]

/-- An error that is passed as a message gets the place of an ordinary enum: when its variants have
no fields, the string is written outside of that place. -/
theorem C70_message_error_broken (nss : List (List TypeDef)) (m : LayoutMap) (h : layouts nss = some m)
    (hn : DistinctNames nss) (n : Name) (variants : List (List Ty))
    (hd : .enum n true variants ∈ nss.flatten) (hv : ∀ v ∈ variants, v = []) :
    ∃ l, m.get (.enum n) = some l ∧ l.size ≤ 4 ∧ ¬ WellPlaced messageErrorSlots l.size l.align := by
  obtain ⟨hg, hall⟩ := layouts_spec h hn
  obtain ⟨m0, m1, g0, hs, ha, l0, l1⟩ := hall _ hd
  unfold LayoutMap.addDef at ha
  rw [if_neg (by rw [hs]; decide)] at ha
  simp only [Option.bind_eq_bind, Option.bind_eq_some_iff] at ha
  obtain ⟨l, hl, l', hm, e⟩ := ha
  cases e
  have := make_ok hm
  subst this
  have key : ∀ (vs : List (List Ty)) (l r : Layout), (∀ v ∈ vs, v = []) → l.size ≤ 4 →
      m0.variants l vs = some r → r.size ≤ 4 := by
    intro vs
    induction vs with
    | nil => intro l r _ hl e; simp [LayoutMap.variants] at e; subst e; exact hl
    | cons v vs ih =>
      intro l r hv hl e
      have := hv v (by simp)
      subst this
      simp only [LayoutMap.variants, Option.bind_eq_bind, Option.bind_eq_some_iff] at e
      obtain ⟨x, hx, e⟩ := e
      have hx : x = ⟨4, 4⟩ := by
        have : m0.forTypes [.int .i32] = some ⟨4, 4⟩ := by rfl
        rw [this] at hx; exact (Option.some.inj hx).symm
      subst hx
      exact ih _ _ (fun v hv' => hv v (by simp [hv'])) (by simp only; omega) e
  have h4 := key _ _ _ hv (by decide) hl
  refine ⟨⟨l.size, l.align⟩, ?_, h4, ?_⟩
  · simp only [LayoutMap.get]
    exact l1 _ _ (by simp [LayoutMap.insert])
  · intro hw
    have := hw.inside ⟨8, 24, 8⟩ (by simp [messageErrorSlots])
    simp only at this h4
    omega

section Examples

/-- A crate with nested records, an enum and an option. -/
def shop : List TypeDef :=
  [.record ⟨"shop", "Item"⟩ [.int .u8, .option (.int .u16), .string],
   .record ⟨"shop", "Order"⟩ [.record ⟨"shop", "Item"⟩, .int .u8, .enum ⟨"shop", "State"⟩],
   .enum ⟨"shop", "State"⟩ false [[], [.int .u64], [.bool, .seq (.record ⟨"shop", "Order"⟩)]],
   .optional (.int .u16),
   .other (.seq (.record ⟨"shop", "Order"⟩)) [.record ⟨"shop", "Order"⟩]]

example : DistinctNames [shop] := by decide +kernel

example : (layouts [shop]).map (fun m => (m.get (.option (.int .u16)), m.get (.record ⟨"shop", "Item"⟩),
      m.get (.enum ⟨"shop", "State"⟩), m.get (.record ⟨"shop", "Order"⟩))) =
    some (some ⟨4, 2⟩, some ⟨32, 8⟩, some ⟨24, 8⟩, some ⟨64, 8⟩) := by decide +kernel

example : (layouts [shop]).map (fun m =>
      (m.recordOffsets [.record ⟨"shop", "Item"⟩, .int .u8, .enum ⟨"shop", "State"⟩],
       m.variantOffsets [.bool, .seq (.record ⟨"shop", "Order"⟩)])) =
    some (some [0, 32, 40], some [4, 8]) := by decide +kernel

example : (layouts [shop]).map (fun m =>
      (m.itemSize (.option (.int .u16)), m.entry (.int .u16) .string, m.entry .string (.int .u16))) =
    some (some 4, some (8, 32), some (24, 32)) := by decide +kernel

/-- The items of a list of records without fields are 0 bytes apart: both sides then divide the
capacity of the buffer by 0 to find the number of items (`sequence.rs:27`, `SequenceFfi.kt:18`). -/
theorem C70_empty_item_broken :
    (layouts [[.record ⟨"a", "Unit"⟩ []]]).bind (fun m => m.itemSize (.record ⟨"a", "Unit"⟩)) = some 0 := by
  decide +kernel

/-- A record used by another crate: generation works when the namespace that defines it comes after
the one that uses it in the alphabet, and fails otherwise. The reference of the other crate then
replaces the definition, because both have the same name for the sort. -/
theorem C70_other_crate_broken :
    let def_ (ns : String) : TypeDef := .record ⟨ns, "Point"⟩ [.int .i32]
    let use (ns def' : String) : List TypeDef :=
      [.record ⟨ns, "Line"⟩ [.record ⟨def', "Point"⟩], .other (.record ⟨def', "Point"⟩) []]
    (layouts [use "app" "geometry", [def_ "geometry"]]).isSome = true ∧
    layouts [[def_ "geometry"], use "ui" "geometry"] = none := by
  constructor
  · decide +kernel
  · have : (layouts [[.record ⟨"geometry", "Point"⟩ [.int .i32]],
        [.record ⟨"ui", "Line"⟩ [.record ⟨"geometry", "Point"⟩],
          .other (.record ⟨"geometry", "Point"⟩) []]]).isNone = true := by decide +kernel
    simpa using this

/-- The definitions of a crate with a record `Out` that holds a record `In`, which holds an object with a
method that takes an `Out`, and another record that holds such an object. First in the order of the
metadata, then as sorted for the namespace. -/
def tangled : List TypeDef :=
  [.record ⟨"a", "A"⟩ [.iface ⟨"a", "X"⟩], .record ⟨"a", "In"⟩ [.iface ⟨"a", "X"⟩],
   .record ⟨"a", "Out"⟩ [.record ⟨"a", "In"⟩], .other (.iface ⟨"a", "X"⟩) [.record ⟨"a", "Out"⟩]]

/-- Generation fails for these definitions, although no record holds itself: the sort puts `Out` before
`In`, because it also follows the types in the methods of objects. -/
theorem C70_tangled_broken :
    DistinctNames [tangled] ∧
    ∃ sorted, Verif.Gen.dependencySort TypeDef.itemName TypeDef.depNames tangled = some sorted ∧
      layouts [sorted] = none := by
  refine ⟨by decide +kernel, [.record ⟨"a", "In"⟩ [.iface ⟨"a", "X"⟩],
    .record ⟨"a", "Out"⟩ [.record ⟨"a", "In"⟩], .other (.iface ⟨"a", "X"⟩) [.record ⟨"a", "Out"⟩],
    .record ⟨"a", "A"⟩ [.iface ⟨"a", "X"⟩]], by decide +kernel, ?_⟩
  have : (layouts [[.record ⟨"a", "In"⟩ [.iface ⟨"a", "X"⟩],
    .record ⟨"a", "Out"⟩ [.record ⟨"a", "In"⟩], .other (.iface ⟨"a", "X"⟩) [.record ⟨"a", "Out"⟩],
    .record ⟨"a", "A"⟩ [.iface ⟨"a", "X"⟩]]]).isNone = true := by decide +kernel
  simpa using this

/-- A message error in a list, and a record with a `Duration`. -/
example : DistinctNames [[.enum ⟨"a", "E"⟩ true [[], []], .record ⟨"a", "R"⟩ [.duration]]] ∧
    (layouts [[.enum ⟨"a", "E"⟩ true [[], []]]]).isSome = true := by
  constructor <;> decide +kernel

end Examples

end Verif.Props.JniLayout
