import Verif.Jni.ValuesSpec
import Verif.Props.JniFfi
/-
Where the values of lists, maps, records and variants are, and what arguments they are passed as.
-/
namespace Verif.Jni
open Verif.Wire (IntTy Val)
open Verif.Props.JniLayout Verif.Props.JniFfi

/-! ### Definitions by name -/

theorem findRecord : ∀ (ds : List TypeDef) (n : Name) (fields : List Ty), (ds.map TypeDef.itemName).Nodup →
    .record n fields ∈ ds → (ds.findSome? fun d => match d with
      | .record n' fields => if n' = n then some fields else none
      | _ => none) = some fields := by
  intro ds n fields
  induction ds with
  | nil => intro _ h; cases h
  | cons d ds ih =>
    intro hn hm
    rw [List.map_cons, List.nodup_cons] at hn
    rcases List.mem_cons.1 hm with rfl | hm
    · simp [List.findSome?_cons]
    · have hne : d.itemName ≠ (TypeDef.record n fields).itemName := fun e =>
        hn.1 (List.mem_map.2 ⟨_, hm, e.symm⟩)
      rw [List.findSome?_cons]
      have hd : (fun d : TypeDef => match d with
          | .record n' fields => if n' = n then some fields else none
          | _ => (none : Option (List Ty))) d = none := by
        cases d with
        | record n' fs =>
          simp only
          rw [if_neg]
          rintro rfl
          exact hne rfl
        | _ => rfl
      simp only at hd
      rw [hd]
      exact ih hn.2 hm

theorem findEnum : ∀ (ds : List TypeDef) (n : Name) (vs : List (List Ty)), (ds.map TypeDef.itemName).Nodup →
    .enum n false vs ∈ ds → (ds.findSome? fun d => match d with
      | .enum n' false variants => if n' = n then some variants else none
      | _ => none) = some vs := by
  intro ds n vs
  induction ds with
  | nil => intro _ h; cases h
  | cons d ds ih =>
    intro hn hm
    rw [List.map_cons, List.nodup_cons] at hn
    rcases List.mem_cons.1 hm with rfl | hm
    · simp [List.findSome?_cons]
    · have hne : d.itemName ≠ (TypeDef.enum n false vs).itemName := fun e =>
        hn.1 (List.mem_map.2 ⟨_, hm, e.symm⟩)
      rw [List.findSome?_cons]
      have hd : (fun d : TypeDef => match d with
          | .enum n' false variants => if n' = n then some variants else none
          | _ => (none : Option (List (List Ty)))) d = none := by
        cases d with
        | enum n' flat fs =>
          cases flat with
          | true => rfl
          | false =>
            simp only
            rw [if_neg]
            rintro rfl
            exact hne rfl
        | _ => rfl
      simp only at hd
      rw [hd]
      exact ih hn.2 hm

theorem World.Good.recordFields {w : World} (hw : w.Good) {n : Name} {fields : List Ty}
    (h : .record n fields ∈ w.nss.flatten) : w.recordFields n = some fields := findRecord _ _ _ hw.names h

theorem World.Good.enumVariants {w : World} (hw : w.Good) {n : Name} {vs : List (List Ty)}
    (h : .enum n false vs ∈ w.nss.flatten) : w.enumVariants n = some vs := findEnum _ _ _ hw.names h

/-! ### Places -/

/-- The values lie inside `n` bytes, in order, and are aligned if the whole is aligned to `align`. -/
structure SlotsOk (m : LayoutMap) (slots : Slots) (n align : Nat) : Prop where
  inside : ∀ x ∈ slots, ∃ l, m.get x.1 = some l ∧ x.2.1 + l.size ≤ n ∧ l.align ∣ x.2.1 ∧ l.align ∣ align
  apart : slots.Pairwise fun x y => ∀ l, m.get x.1 = some l → x.2.1 + l.size ≤ y.2.1

theorem fieldSlots_offsets {m : LayoutMap} (ts : List Ty) (os : List Nat) (vs : List Val) (rest : List Slot)
    (hr : m.slots ts os = some rest) : ∀ y ∈ fieldSlots ts os vs, ∃ s ∈ rest, s.offset = y.2.1 := by
  induction ts generalizing os vs rest with
  | nil => intro y hy; simp [fieldSlots] at hy
  | cons t ts ih =>
    intro y hy
    cases os with
    | nil => simp [fieldSlots] at hy
    | cons o os =>
      cases vs with
      | nil => simp [fieldSlots] at hy
      | cons v vs =>
        simp only [LayoutMap.slots, Option.bind_eq_bind, Option.bind_eq_some_iff, Option.some.injEq] at hr
        obtain ⟨l', _, rest', hr', rfl⟩ := hr
        simp only [fieldSlots, List.mem_cons] at hy
        rcases hy with rfl | hy
        · exact ⟨⟨o, l'.size, l'.align⟩, by simp, rfl⟩
        · obtain ⟨s, h1, h2⟩ := ih os vs rest' hr' y hy
          exact ⟨s, by simp [h1], h2⟩

theorem fieldSlots_ok {m : LayoutMap} : ∀ (ts : List Ty) (os : List Nat) (vs : List Val) (sl : List Slot) (n a : Nat),
    m.slots ts os = some sl → WellPlaced sl n a → SlotsOk m (fieldSlots ts os vs) n a
  | [], _, _, _, _, _, _, _ => ⟨by simp [fieldSlots], by simp [fieldSlots]⟩
  | _ :: _, [], _, _, _, _, _, _ => ⟨by simp [fieldSlots], by simp [fieldSlots]⟩
  | _ :: _, _ :: _, [], _, _, _, _, _ => ⟨by simp [fieldSlots], by simp [fieldSlots]⟩
  | t :: ts, o :: os, v :: vs, sl, n, a, h, hp => by
    simp only [LayoutMap.slots, Option.bind_eq_bind, Option.bind_eq_some_iff, Option.some.injEq] at h
    obtain ⟨l, hl, rest, hr, rfl⟩ := h
    have hin := hp.inside ⟨o, l.size, l.align⟩ (by simp)
    have hal := hp.aligned ⟨o, l.size, l.align⟩ (by simp)
    have hap := List.pairwise_cons.1 hp.apart
    have ih := fieldSlots_ok ts os vs rest n a hr
      ⟨fun s hs => hp.inside s (by simp [hs]), hap.2, fun s hs => hp.aligned s (by simp [hs])⟩
    constructor
    · intro x hx
      simp only [fieldSlots, List.mem_cons] at hx
      rcases hx with rfl | hx
      · exact ⟨l, hl, hin, hal.1, hal.2⟩
      · exact ih.inside x hx
    · simp only [fieldSlots, List.pairwise_cons]
      refine ⟨?_, ih.apart⟩
      intro y hy l' hl'
      rw [hl] at hl'
      cases hl'
      obtain ⟨s, h1, h2⟩ := fieldSlots_offsets _ _ _ _ hr y hy
      have := hap.1 s h1
      simp only at this
      omega

theorem listSlots_ge {t : Ty} {step : Nat} : ∀ (vs : List Val) (o : Nat), ∀ x ∈ listSlots t step o vs, x.1 = t ∧
    o ≤ x.2.1 ∧ x.2.1 + step ≤ o + vs.length * step ∧ (∀ a, a ∣ o → a ∣ step → a ∣ x.2.1) ∧ x.2.2 ∈ vs
  | [], _, _, h => by simp [listSlots] at h
  | v :: vs, o, x, h => by
    simp only [listSlots, List.mem_cons] at h
    simp only [List.length_cons, Nat.add_mul, Nat.one_mul]
    rcases h with rfl | h
    · exact ⟨rfl, Nat.le_refl _, by simp only; omega, fun a h _ => h, by simp⟩
    · obtain ⟨h1, h2, h3, h4, h5⟩ := listSlots_ge vs (o + step) x h
      exact ⟨h1, by omega, by omega, fun a d1 d2 => h4 a (Nat.dvd_add d1 d2) d2, by simp [h5]⟩

theorem listSlots_ok {m : LayoutMap} {t : Ty} {l : Layout} {step : Nat} (hl : m.get t = some l) (h1 : l.size ≤ step)
    (h2 : l.align ∣ step) (h8 : l.align ∣ 8) (vs : List Val) :
    SlotsOk m (listSlots t step 0 vs) (vs.length * step) 8 := by
  constructor
  · intro x hx
    obtain ⟨e, _, hi, ha, _⟩ := listSlots_ge vs 0 x hx
    exact ⟨l, by rw [e, hl], by omega, ha _ (Nat.dvd_zero _) h2, h8⟩
  · have : ∀ (vs : List Val) (o : Nat), (listSlots t step o vs).Pairwise fun x y =>
        ∀ l, m.get x.1 = some l → x.2.1 + l.size ≤ y.2.1 := by
      intro vs
      induction vs with
      | nil => intro o; simp [listSlots]
      | cons v vs ih =>
        intro o
        simp only [listSlots, List.pairwise_cons]
        refine ⟨?_, ih _⟩
        intro y hy l' hl'
        have := (listSlots_ge vs (o + step) y hy).2.1
        rw [hl] at hl'
        cases hl'
        omega
    exact this vs 0

theorem entrySlots_ge {kt vt : Ty} {voff step : Nat} (hv : voff ≤ step) : ∀ (es : List (Val × Val)) (o : Nat),
    ∀ x ∈ entrySlots kt vt voff step o es, o ≤ x.2.1 ∧
      ((x.1 = kt ∧ x.2.1 + step ≤ o + es.length * step ∧ (∀ a, a ∣ o → a ∣ step → a ∣ x.2.1) ∧
          ∃ e ∈ es, x.2.2 = e.1) ∨
       (x.1 = vt ∧ x.2.1 + step ≤ o + voff + es.length * step ∧ (∀ a, a ∣ o → a ∣ step → a ∣ voff → a ∣ x.2.1) ∧
          ∃ e ∈ es, x.2.2 = e.2))
  | [], _, _, h => by simp [entrySlots] at h
  | (k, v) :: es, o, x, h => by
    simp only [entrySlots, List.mem_cons] at h
    simp only [List.length_cons, Nat.add_mul, Nat.one_mul]
    rcases h with rfl | rfl | h
    · exact ⟨Nat.le_refl _, Or.inl ⟨rfl, by simp only; omega, fun a h _ => h, (k, v), by simp, rfl⟩⟩
    · exact ⟨by simp, Or.inr ⟨rfl, by simp only; omega, fun a h _ h' => Nat.dvd_add h h', (k, v), by simp, rfl⟩⟩
    · obtain ⟨h1, h2⟩ := entrySlots_ge hv es (o + step) x h
      refine ⟨by omega, ?_⟩
      rcases h2 with ⟨e, a, b, e', he, c⟩ | ⟨e, a, b, e', he, c⟩
      · exact Or.inl ⟨e, by omega, fun a d1 d2 => b a (Nat.dvd_add d1 d2) d2, e', by simp [he], c⟩
      · exact Or.inr ⟨e, by omega, fun a d1 d2 d3 => b a (Nat.dvd_add d1 d2) d2 d3, e', by simp [he], c⟩

theorem entrySlots_ok {m : LayoutMap} {kt vt : Ty} {lk lv : Layout} {voff step : Nat} (hk : m.get kt = some lk)
    (hv : m.get vt = some lv) (h1 : lk.size ≤ voff) (h2 : voff + lv.size ≤ step)
    (k2 : lk.align ∣ step) (k8 : lk.align ∣ 8) (v2 : lv.align ∣ step) (v3 : lv.align ∣ voff) (v8 : lv.align ∣ 8)
    (es : List (Val × Val)) :
    SlotsOk m (entrySlots kt vt voff step 0 es) (es.length * step) 8 := by
  constructor
  · intro x hx
    obtain ⟨h0, h⟩ := entrySlots_ge (by omega) es 0 x hx
    rcases h with ⟨e, a, b, _⟩ | ⟨e, a, b, _⟩
    · exact ⟨lk, by rw [e, hk], by omega, b _ (Nat.dvd_zero _) k2, k8⟩
    · exact ⟨lv, by rw [e, hv], by omega, b _ (Nat.dvd_zero _) v2 v3, v8⟩
  · have : ∀ (es : List (Val × Val)) (o : Nat), (entrySlots kt vt voff step o es).Pairwise fun x y =>
        ∀ l, m.get x.1 = some l → x.2.1 + l.size ≤ y.2.1 := by
      intro es
      induction es with
      | nil => intro o; simp [entrySlots]
      | cons e es ih =>
        intro o
        obtain ⟨k, v⟩ := e
        simp only [entrySlots, List.pairwise_cons, List.mem_cons]
        refine ⟨?_, ?_, ih _⟩
        · intro y hy l' hl'
          rw [hk] at hl'
          cases hl'
          rcases hy with rfl | hy
          · simp only; omega
          · have := (entrySlots_ge (by omega) es (o + step) y hy).1
            omega
        · intro y hy l' hl'
          rw [hv] at hl'
          cases hl'
          have := (entrySlots_ge (by omega) es (o + step) y hy).1
          omega
    exact this es 0

theorem mem_itemSlots {count step off i : Nat} {l : Layout} (h : i < count) :
    (⟨i * step + off, l.size, l.align⟩ : Slot) ∈ itemSlots count step off l := by
  unfold itemSlots
  exact List.mem_map.2 ⟨i, List.mem_range.2 h, rfl⟩

/-- The values of a list, map or set lie inside its buffer. -/
theorem World.Good.items {w : World} (hw : w.Good) {t : Ty} {v : Val} {slots : Slots} {size : Nat}
    (h : w.itemsOf t v = some (slots, size)) : SlotsOk w.layout slots size 8 := by
  unfold World.itemsOf at h
  have list : ∀ (t : Ty) (vs : List Val), (do
      let step ← w.layout.itemSize t
      some (listSlots t step 0 vs, vs.length * step)) = some (slots, size) → SlotsOk w.layout slots size 8 := by
    intro t vs h
    simp only [Option.bind_eq_bind, Option.bind_eq_some_iff, Option.some.injEq, Prod.mk.injEq] at h
    obtain ⟨step, hs, rfl, rfl⟩ := h
    obtain ⟨l, hl, hp⟩ := C70_items _ _ hw.layout hw.names t step hs
    have h8 := C70_alignment _ _ hw.layout hw.names t l hl
    have p1 := (hp 1).inside ⟨0 * step + 0, l.size, l.align⟩ (mem_itemSlots (by omega))
    have p2 := (hp 2).aligned ⟨1 * step + 0, l.size, l.align⟩ (mem_itemSlots (by omega))
    simp only [Nat.one_mul, Nat.add_zero, Nat.zero_mul, Nat.zero_add] at p1 p2
    exact listSlots_ok hl p1 p2.1 h8 vs
  split at h
  · exact list _ _ h
  · exact list _ _ h
  · simp only [Option.bind_eq_bind, Option.bind_eq_some_iff, Option.some.injEq, Prod.mk.injEq] at h
    obtain ⟨⟨voff, step⟩, hs, rfl, rfl⟩ := h
    obtain ⟨lk, lv, hk, hv, hle, hp⟩ := C70_entries _ _ hw.layout hw.names _ _ voff step hs
    have k8 := C70_alignment _ _ hw.layout hw.names _ lk hk
    have v8 := C70_alignment _ _ hw.layout hw.names _ lv hv
    have p1 := (hp 1).2.inside ⟨0 * step + voff, lv.size, lv.align⟩ (mem_itemSlots (by omega))
    have p2 := (hp 2).1.aligned ⟨1 * step + 0, lk.size, lk.align⟩ (mem_itemSlots (by omega))
    have p3 := (hp 2).2.aligned ⟨1 * step + voff, lv.size, lv.align⟩ (mem_itemSlots (by omega))
    have p4 := (hp 1).2.aligned ⟨0 * step + voff, lv.size, lv.align⟩ (mem_itemSlots (by omega))
    simp only [Nat.one_mul, Nat.add_zero, Nat.zero_mul, Nat.zero_add] at p1 p2 p3 p4
    exact entrySlots_ok hk hv hle p1 p2.1 k8 ((Nat.dvd_add_iff_left p4.1).2 p3.1) p4.1 v8 _
  · exact nomatch h

/-! ### Places and values -/

/-- Where a value is, without the value. -/
def placeOf (x : Ty × Nat × Val) : Ty × Nat := (x.1, x.2.1)

theorem listSlots_places (t : Ty) (step : Nat) : ∀ (vs : List Val) (o : Nat),
    (listSlots t step o vs).map placeOf = listPlaces t step o vs.length ∧
    (listSlots t step o vs).map (fun x => x.2.2) = vs
  | [], _ => ⟨rfl, rfl⟩
  | v :: vs, o => by
    obtain ⟨h1, h2⟩ := listSlots_places t step vs (o + step)
    simp [listSlots, listPlaces, h1, h2, placeOf]

theorem entrySlots_places (kt vt : Ty) (voff step : Nat) : ∀ (es : List (Val × Val)) (o : Nat),
    (entrySlots kt vt voff step o es).map placeOf = entryPlaces kt vt voff step o es.length ∧
    pairs ((entrySlots kt vt voff step o es).map fun x => x.2.2) = es
  | [], _ => ⟨rfl, rfl⟩
  | (k, v) :: es, o => by
    obtain ⟨h1, h2⟩ := entrySlots_places kt vt voff step es (o + step)
    simp [entrySlots, entryPlaces, h1, h2, placeOf, pairs]

theorem fieldSlots_places : ∀ (ts : List Ty) (os : List Nat) (vs : List Val), ts.length = os.length →
    ts.length = vs.length → (fieldSlots ts os vs).map placeOf = ts.zip os ∧
    (fieldSlots ts os vs).map (fun x => x.2.2) = vs
  | [], [], [], _, _ => ⟨rfl, rfl⟩
  | t :: ts, o :: os, v :: vs, h1, h2 => by
    obtain ⟨a, b⟩ := fieldSlots_places ts os vs (by simpa using h1) (by simpa using h2)
    simp [fieldSlots, a, b, placeOf]

theorem slots_length {m : LayoutMap} : ∀ (ts : List Ty) (os : List Nat) (sl : List Slot), m.slots ts os = some sl →
    ts.length = os.length
  | [], [], _, _ => rfl
  | [], _ :: _, _, h => nomatch h
  | _ :: _, [], _, h => nomatch h
  | t :: ts, o :: os, sl, h => by
    simp only [LayoutMap.slots, Option.bind_eq_bind, Option.bind_eq_some_iff, Option.some.injEq] at h
    obtain ⟨l, hl, rest, hr, rfl⟩ := h
    simpa using slots_length ts os rest hr

theorem allOf_length {α β : Type} {p : α → β → Prop} : ∀ (as : List α) (bs : List β), AllOf p as bs → as.length = bs.length
  | [], [], _ => rfl
  | [], _ :: _, h => h.elim
  | _ :: _, [], h => h.elim
  | _ :: as, _ :: bs, h => by simpa using allOf_length as bs h.2

theorem fieldSlots_typed {p : Ty → Val → Prop} : ∀ (ts : List Ty) (os : List Nat) (vs : List Val), AllOf p ts vs →
    ∀ x ∈ fieldSlots ts os vs, p x.1 x.2.2
  | [], _, _, _, x, h => by simp [fieldSlots] at h
  | _ :: _, [], _, _, x, h => by simp [fieldSlots] at h
  | _ :: _, _ :: _, [], _, x, h => by simp [fieldSlots] at h
  | t :: ts, o :: os, v :: vs, ha, x, h => by
    simp only [fieldSlots, List.mem_cons] at h
    rcases h with rfl | h
    · exact ha.1
    · exact fieldSlots_typed ts os vs ha.2 x h

theorem setInsert_all : ∀ (vs acc : List Val), (acc ++ vs).Nodup → vs.foldl setInsert acc = acc ++ vs
  | [], acc, _ => by simp
  | v :: vs, acc, h => by
    have hv : v ∉ acc := by
      intro hc
      have := List.nodup_append.1 h
      exact this.2.2 v hc v (by simp) rfl
    rw [List.foldl_cons]
    unfold setInsert
    rw [if_neg hv]
    rw [show (List.foldl (fun vs v => if v ∈ vs then vs else vs ++ [v]) (acc ++ [v]) vs) =
      vs.foldl setInsert (acc ++ [v]) from rfl, setInsert_all vs (acc ++ [v]) (by simpa using h)]
    simp

theorem mapInsert_new : ∀ (acc : List (Val × Val)) (e : Val × Val), e.1 ∉ acc.map Prod.fst → mapInsert acc e = acc ++ [e]
  | [], e, _ => rfl
  | (k, v) :: acc, e, h => by
    simp only [List.map_cons, List.mem_cons, not_or] at h
    simp [mapInsert, Ne.symm h.1, mapInsert_new acc e h.2]

theorem mapInsert_all : ∀ (es acc : List (Val × Val)), ((acc ++ es).map Prod.fst).Nodup → es.foldl mapInsert acc = acc ++ es
  | [], acc, _ => by simp
  | e :: es, acc, h => by
    have hv : e.1 ∉ acc.map Prod.fst := by
      intro hc
      rw [List.map_append] at h
      have := List.nodup_append.1 h
      exact this.2.2 e.1 hc e.1 (by simp) rfl
    rw [List.foldl_cons, mapInsert_new acc e hv, mapInsert_all es (acc ++ [e]) (by simpa using h)]
    simp

/-! ### Arguments of options and custom types -/

theorem World.Good.ffiOption {w : World} (hw : w.Good) {t : Ty} (hd : .optional t ∈ w.nss.flatten)
    (hs : standard (.option t) = none) :
    ∃ l, w.ffi.get t = some l ∧ w.ffi.get (.option t) = some (.boolean :: l) := by
  obtain ⟨m0, m1, ha, l0, l1⟩ := ffiTypes_spec hw.ffi hw.names _ hd
  simp only [FfiMap.addDef, hs, Option.bind_eq_bind, Option.bind_eq_some_iff] at ha
  obtain ⟨l, hl, e⟩ := ha
  cases e
  refine ⟨l, l0.get _ _ hl, ?_⟩
  simp only [FfiMap.get, hs]
  exact l1 _ _ (by simp [FfiMap.insert])

theorem World.Good.ffiCustom {w : World} (hw : w.Good) {n : Name} {t : Ty} (hd : .custom n t ∈ w.nss.flatten) :
    w.ffi.get (.custom n t) = w.ffi.get t := by
  obtain ⟨m0, m1, ha, l0, l1⟩ := ffiTypes_spec hw.ffi hw.names _ hd
  simp only [FfiMap.addDef, Option.bind_eq_bind, Option.bind_eq_some_iff] at ha
  obtain ⟨l, hl, e⟩ := ha
  cases e
  rw [l0.get _ _ hl]
  simp only [FfiMap.get, standard]
  exact l1 _ _ (by simp [FfiMap.insert])

end Verif.Jni
