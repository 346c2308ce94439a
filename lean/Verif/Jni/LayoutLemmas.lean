import Verif.Jni.Layout
import Verif.Jni.LayoutSpec
/- Facts about layouts. -/
namespace Verif.Jni
open Verif.Wire (IntTy)

theorem roundUp_ge {n a : Nat} (h : 0 < a) : n ≤ roundUp n a := by
  unfold roundUp
  have h1 := Nat.div_add_mod (n + a - 1) a
  have h2 := Nat.mod_lt (n + a - 1) h
  have h3 : a * ((n + a - 1) / a) = (n + a - 1) / a * a := Nat.mul_comm _ _
  omega

theorem roundUp_dvd (n a : Nat) : a ∣ roundUp n a := ⟨_, Nat.mul_comm _ _⟩

theorem roundUp_of_dvd {n a : Nat} (h : 0 < a) (hd : a ∣ n) : roundUp n a = n := by
  obtain ⟨k, rfl⟩ := hd
  unfold roundUp
  have : (a * k + a - 1) / a = k := by
    rw [show a * k + a - 1 = (a - 1) + a * k by omega, Nat.add_mul_div_left _ _ h,
      Nat.div_eq_of_lt (by omega)]
    omega
  rw [this, Nat.mul_comm]

/-- The alignments in use. -/
def IsAlign (a : Nat) : Prop := a = 1 ∨ a = 2 ∨ a = 4 ∨ a = 8

theorem IsAlign.pos {a : Nat} (h : IsAlign a) : 0 < a := by unfold IsAlign at h; omega
theorem IsAlign.dvd8 {a : Nat} (h : IsAlign a) : a ∣ 8 := by
  rcases h with rfl | rfl | rfl | rfl <;> decide
theorem IsAlign.max {a b : Nat} (ha : IsAlign a) (hb : IsAlign b) : IsAlign (max a b) := by
  unfold IsAlign at *; omega
theorem IsAlign.dvd_max_left {a b : Nat} (ha : IsAlign a) (hb : IsAlign b) : a ∣ Max.max a b := by
  rcases ha with rfl | rfl | rfl | rfl <;> rcases hb with rfl | rfl | rfl | rfl <;> decide
theorem IsAlign.dvd_max_right {a b : Nat} (ha : IsAlign a) (hb : IsAlign b) : b ∣ Max.max a b := by
  rcases ha with rfl | rfl | rfl | rfl <;> rcases hb with rfl | rfl | rfl | rfl <;> decide

theorem width_isAlign (t : IntTy) : IsAlign t.width := by
  cases t <;> simp [IntTy.width, IsAlign]

theorem make_ok {s a : Nat} {l : Layout} (h : Layout.make s a = some l) : l = ⟨s, a⟩ := by
  unfold Layout.make at h
  split at h
  · exact (Option.some.inj h).symm
  · cases h

theorem extend_ok {l n r : Layout} {off : Nat} (h : l.extend n = some (r, off)) :
    off = roundUp l.size n.align ∧ r = ⟨off + n.size, max l.align n.align⟩ := by
  unfold Layout.extend at h
  simp only [Option.map_eq_some_iff] at h
  obtain ⟨r', h1, h2⟩ := h
  have := make_ok h1
  injection h2 with h2 h3
  subst h3 h2
  exact ⟨rfl, this⟩

/-- All layouts in the map have one of the alignments in use. -/
def LayoutMap.Good (m : LayoutMap) : Prop := ∀ t l, m t = some l → IsAlign l.align

theorem LayoutMap.Good.get {m : LayoutMap} (h : m.Good) :
    ∀ (t : Ty) (l : Layout), m.get t = some l → IsAlign l.align := by
  intro t
  induction t with
  | custom n b ih => intro l e; exact ih l (by simpa [LayoutMap.get] using e)
  | int t => intro l e; simp [LayoutMap.get] at e; subst e; exact width_isAlign t
  | bytes | duration | timestamp | callback | option | record | enum =>
    intro l e; exact h _ l (by simpa [LayoutMap.get] using e)
  | _ => intro l e; simp [LayoutMap.get] at e; subst e; simp [IsAlign]

/-- `m'` knows all that `m` knows. -/
def LayoutMap.Le (m m' : LayoutMap) : Prop := ∀ t l, m t = some l → m' t = some l

theorem LayoutMap.Le.refl (m : LayoutMap) : m.Le m := fun _ _ h => h
theorem LayoutMap.Le.trans {a b c : LayoutMap} (h : a.Le b) (h' : b.Le c) : a.Le c :=
  fun t l e => h' t l (h t l e)

theorem LayoutMap.Le.get {m m' : LayoutMap} (h : m.Le m') :
    ∀ (t : Ty) (l : Layout), m.get t = some l → m'.get t = some l := by
  intro t
  induction t with
  | custom n b ih => intro l e; simp only [LayoutMap.get] at e ⊢; exact ih l e
  | bytes | duration | timestamp | callback | option | record | enum =>
    intro l e; simp only [LayoutMap.get] at e ⊢; exact h _ l e
  | _ => intro l e; simpa [LayoutMap.get] using e

theorem LayoutMap.Le.place {m m' : LayoutMap} (h : m.Le m') :
    ∀ (ts : List Ty) (l : Layout) (r : Layout × List Nat), m.place l ts = some r → m'.place l ts = some r := by
  intro ts
  induction ts with
  | nil => intro l r e; exact e
  | cons t ts ih =>
    intro l r e
    simp only [LayoutMap.place, Option.bind_eq_bind, Option.bind_eq_some_iff] at e ⊢
    obtain ⟨n, h1, ⟨l', off⟩, h2, ⟨l'', offs⟩, h3, h4⟩ := e
    exact ⟨n, h.get _ _ h1, (l', off), h2, (l'', offs), ih _ _ h3, h4⟩

theorem LayoutMap.Le.forTypes {m m' : LayoutMap} (h : m.Le m') (ts : List Ty) (l : Layout)
    (e : m.forTypes ts = some l) : m'.forTypes ts = some l := by
  unfold LayoutMap.forTypes at *
  simp only [Option.map_eq_some_iff] at e ⊢
  obtain ⟨r, h1, h2⟩ := e
  exact ⟨r, h.place _ _ _ h1, h2⟩

theorem LayoutMap.Le.variants {m m' : LayoutMap} (h : m.Le m') :
    ∀ (vs : List (List Ty)) (l r : Layout), m.variants l vs = some r → m'.variants l vs = some r := by
  intro vs
  induction vs with
  | nil => intro l r e; exact e
  | cons v vs ih =>
    intro l r e
    simp only [LayoutMap.variants, Option.bind_eq_bind, Option.bind_eq_some_iff] at e ⊢
    obtain ⟨x, h1, h2⟩ := e
    exact ⟨x, h.forTypes _ _ h1, ih _ _ h2⟩

/-- The slots of a list of types placed at the given offsets. -/
def LayoutMap.slots (m : LayoutMap) : List Ty → List Nat → Option (List Slot)
  | [], [] => some []
  | t :: ts, o :: os => do
    let l ← m.get t
    let rest ← m.slots ts os
    some (⟨o, l.size, l.align⟩ :: rest)
  | _, _ => none

/-- What placing types one after another gives. -/
theorem place_spec {m : LayoutMap} (hm : m.Good) :
    ∀ (ts : List Ty) (l r : Layout) (offs : List Nat), IsAlign l.align → m.place l ts = some (r, offs) →
      ∃ slots, m.slots ts offs = some slots ∧ l.size ≤ r.size ∧ IsAlign r.align ∧ l.align ∣ r.align ∧
        (∀ s ∈ slots, l.size ≤ s.offset) ∧ WellPlaced slots r.size r.align := by
  intro ts
  induction ts with
  | nil =>
    intro l r offs hl e
    simp [LayoutMap.place] at e
    obtain ⟨rfl, rfl⟩ := e
    exact ⟨[], rfl, Nat.le_refl _, hl, Nat.dvd_refl _, by simp, ⟨by simp, by simp, by simp⟩⟩
  | cons t ts ih =>
    intro l r offs hl e
    simp only [LayoutMap.place, Option.bind_eq_bind, Option.bind_eq_some_iff] at e
    obtain ⟨n, h1, ⟨l', off⟩, h2, ⟨l'', offs'⟩, h3, h4⟩ := e
    simp at h4
    obtain ⟨rfl, rfl⟩ := h4
    have hn := hm.get _ _ h1
    obtain ⟨ho, rfl⟩ := extend_ok h2
    have ha := hl.max hn
    obtain ⟨slots, e1, e2, e3, e4, e5, e6⟩ := ih _ _ _ ha h3
    simp only at e2 e4 e5
    have hge : l.size ≤ off := ho ▸ roundUp_ge hn.pos
    refine ⟨⟨off, n.size, n.align⟩ :: slots, ?_, by omega, e3,
      Nat.dvd_trans (hl.dvd_max_left hn) e4, ?_, ?_⟩
    · simp [LayoutMap.slots, h1, e1]
    · intro s hs
      rcases List.mem_cons.1 hs with rfl | hs
      · exact hge
      · have := e5 s hs; omega
    · refine ⟨?_, ?_, ?_⟩
      · intro s hs
        rcases List.mem_cons.1 hs with rfl | hs
        · exact e2
        · exact e6.inside s hs
      · refine List.pairwise_cons.2 ⟨fun s hs => e5 s hs, e6.apart⟩
      · intro s hs
        rcases List.mem_cons.1 hs with rfl | hs
        · exact ⟨ho ▸ roundUp_dvd _ _, Nat.dvd_trans (hl.dvd_max_right hn) e4⟩
        · exact e6.aligned s hs

theorem empty_isAlign : IsAlign Layout.empty.align := by simp [Layout.empty, IsAlign]

theorem forTypes_isAlign {m : LayoutMap} (hm : m.Good) {ts : List Ty} {l : Layout}
    (e : m.forTypes ts = some l) : IsAlign l.align := by
  unfold LayoutMap.forTypes at e
  simp only [Option.map_eq_some_iff] at e
  obtain ⟨⟨r, offs⟩, h1, rfl⟩ := e
  obtain ⟨_, _, _, h, _⟩ := place_spec hm ts _ _ _ empty_isAlign h1
  exact h

theorem variants_spec {m : LayoutMap} (hm : m.Good) :
    ∀ (vs : List (List Ty)) (l r : Layout), IsAlign l.align → m.variants l vs = some r →
      IsAlign r.align ∧ l.size ≤ r.size ∧ l.align ∣ r.align ∧
      ∀ v ∈ vs, ∃ x, m.forTypes (.int .i32 :: v) = some x ∧ x.size ≤ r.size ∧ x.align ∣ r.align := by
  intro vs
  induction vs with
  | nil =>
    intro l r hl e
    simp [LayoutMap.variants] at e
    subst e
    exact ⟨hl, Nat.le_refl _, Nat.dvd_refl _, by simp⟩
  | cons v vs ih =>
    intro l r hl e
    simp only [LayoutMap.variants, Option.bind_eq_bind, Option.bind_eq_some_iff] at e
    obtain ⟨x, h1, h2⟩ := e
    have hx := forTypes_isAlign hm h1
    obtain ⟨i1, i2, i3, i4⟩ := ih _ _ (hl.max hx) h2
    simp only at i2 i3
    refine ⟨i1, by omega, Nat.dvd_trans (hl.dvd_max_left hx) i3, ?_⟩
    intro w hw
    rcases List.mem_cons.1 hw with rfl | hw
    · exact ⟨x, h1, by omega, Nat.dvd_trans (hl.dvd_max_right hx) i3⟩
    · exact i4 w hw

theorem insert_le {m : LayoutMap} {t : Ty} {l : Layout} (h : m t = none) : m.Le (m.insert t l) := by
  intro t' l' e
  unfold LayoutMap.insert
  split
  · rename_i e'; subst e'; rw [h] at e; cases e
  · exact e

theorem insert_good {m : LayoutMap} (hm : m.Good) {t : Ty} {l : Layout} (h : IsAlign l.align) :
    (m.insert t l).Good := by
  intro t' l' e
  unfold LayoutMap.insert at e
  split at e
  · cases e; exact h
  · exact hm _ _ e

/-- One definition: the map stays good, keeps what it had, and changes only at the type defined. -/
theorem addDef_spec {m m' : LayoutMap} (hm : m.Good) {d : TypeDef} (e : m.addDef d = some m') :
    m'.Good ∧ m.Le m' ∧ ∀ t, t ≠ d.self → m' t = m t := by
  unfold LayoutMap.addDef at e
  split at e
  · cases e; exact ⟨hm, .refl _, fun _ _ => rfl⟩
  · rename_i hs
    have hs : m d.self = none := by simpa using hs
    cases d with
    | record n fields =>
      simp only [Option.bind_eq_bind, Option.bind_eq_some_iff] at e
      obtain ⟨l, h1, h2⟩ := e
      cases h2
      exact ⟨insert_good hm (forTypes_isAlign hm h1), insert_le hs,
        fun t ht => if_neg ht⟩
    | enum n f vs =>
      simp only [Option.bind_eq_bind, Option.bind_eq_some_iff] at e
      obtain ⟨l, h1, l', h2, h3⟩ := e
      cases h3
      have := make_ok h2
      subst this
      exact ⟨insert_good hm (variants_spec hm _ _ _ empty_isAlign h1).1, insert_le hs,
        fun t ht => if_neg ht⟩
    | optional t =>
      simp only [Option.bind_eq_bind, Option.bind_eq_some_iff] at e
      obtain ⟨l, h1, h2⟩ := e
      cases h2
      exact ⟨insert_good hm (forTypes_isAlign hm h1), insert_le hs,
        fun t ht => if_neg ht⟩
    | custom | other => cases e; exact ⟨hm, .refl _, fun _ _ => rfl⟩

/-- All definitions: each was added to a map the result extends. -/
theorem addDefs_spec :
    ∀ (ds : List TypeDef) {m m' : LayoutMap}, m.Good → m.addDefs ds = some m' →
      (ds.map TypeDef.self).Nodup → (∀ d ∈ ds, m d.self = none) →
      m'.Good ∧ m.Le m' ∧
      ∀ d ∈ ds, ∃ m0 m1 : LayoutMap, m0.Good ∧ m0 d.self = none ∧ m0.addDef d = some m1 ∧ m0.Le m' ∧ m1.Le m' := by
  intro ds
  induction ds with
  | nil =>
    intro m m' hm e _ _
    simp [LayoutMap.addDefs] at e
    subst e
    exact ⟨hm, .refl _, by simp⟩
  | cons d ds ih =>
    intro m m' hm e hn h0
    simp only [LayoutMap.addDefs, Option.bind_eq_bind, Option.bind_eq_some_iff] at e
    obtain ⟨m1, h1, h2⟩ := e
    obtain ⟨g1, g2, g3⟩ := addDef_spec hm h1
    simp only [List.map_cons, List.nodup_cons] at hn
    obtain ⟨i1, i2, i3⟩ := ih g1 h2 hn.2 (fun d' hd' => by
      rw [g3]
      · exact h0 d' (List.mem_cons_of_mem _ hd')
      · intro he; exact hn.1 (he ▸ List.mem_map_of_mem hd'))
    refine ⟨i1, g2.trans i2, ?_⟩
    intro d' hd'
    rcases List.mem_cons.1 hd' with rfl | hd'
    · exact ⟨m, m1, hm, h0 _ (by simp), h1, g2.trans i2, i2⟩
    · exact i3 d' hd'

theorem layoutsOf_spec {ds : List TypeDef} {m : LayoutMap} (e : layoutsOf ds = some m)
    (hn : (ds.map TypeDef.self).Nodup) :
    m.Good ∧ ∀ d ∈ ds, ∃ m0 m1 : LayoutMap, m0.Good ∧ m0 d.self = none ∧ m0.addDef d = some m1 ∧ m0.Le m ∧ m1.Le m := by
  have := addDefs_spec ds (m := fun _ => none) (fun _ _ h => by cases h) e hn (by simp)
  exact ⟨this.1, this.2.2⟩

end Verif.Jni
