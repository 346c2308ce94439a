import Verif.Jni.MemoryLemmas
import Verif.Jni.PlacesLemmas
import Verif.Props.JniSimple
/-
Lemmas about values in buffers and arguments.
-/
namespace Verif.Jni
open Verif.Wire (IntTy Val)
open Verif.Props.JniLayout Verif.Props.JniFfi Verif.Props.JniSimple

/-- All blocks are there. -/
def Live (h : Heap) (own : List Nat) : Prop := ∀ a ∈ own, h a ≠ none

/-- The blocks are the same. -/
def Agree (h h' : Heap) (own : List Nat) : Prop := ∀ a ∈ own, h' a = h a

/-- The blocks `own` are new; nothing else changed. -/
structure Fresh (h h' : Heap) (own : List Nat) : Prop where
  new : ∀ a ∈ own, h a = none
  rest : ∀ a, a ∉ own → h' a = h a
  live : Live h' own

theorem Fresh.refl (h : Heap) : Fresh h h [] := ⟨by simp, fun _ _ => rfl, by simp [Live]⟩

theorem Fresh.drop {h h' : Heap} {own : List Nat} (f : Fresh h h' own) : h'.drop own = h := by
  funext a
  by_cases ha : a ∈ own
  · simp [Heap.drop, ha, f.new a ha]
  · simp [Heap.drop, ha, f.rest a ha]

theorem Fresh.disjoint {h h' : Heap} {o1 o2 : List Nat} (hl : Live h o1) (f : Fresh h h' o2) : ∀ a ∈ o1, a ∉ o2 :=
  fun a h1 h2 => hl a h1 (f.new a h2)

theorem Fresh.agree {h h' : Heap} {o1 o2 : List Nat} (hl : Live h o1) (f : Fresh h h' o2) : Agree h h' o1 :=
  fun a ha => f.rest a (Fresh.disjoint hl f a ha)

theorem Fresh.trans {h h1 h2 : Heap} {o1 o2 : List Nat} (f1 : Fresh h h1 o1) (f2 : Fresh h1 h2 o2) :
    Fresh h h2 (o1 ++ o2) := by
  refine ⟨?_, ?_, ?_⟩
  · intro a ha
    by_cases h1' : a ∈ o1
    · exact f1.new a h1'
    · rw [← f1.rest a h1']
      rcases List.mem_append.1 ha with ha | ha
      · exact absurd ha h1'
      · exact f2.new a ha
  · intro a ha
    rw [List.mem_append, not_or] at ha
    rw [f2.rest a ha.2, f1.rest a ha.1]
  · intro a ha
    by_cases h2' : a ∈ o2
    · exact f2.live a h2'
    · rcases List.mem_append.1 ha with ha | ha
      · rw [f2.rest a h2']
        exact f1.live a ha
      · exact absurd ha h2'

/-- New blocks first, then bytes of an old buffer. -/
theorem Fresh.grew {h h1 h2 : Heap} {b lo hi size : Nat} {bs : Nat → Option Nat} {own : List Nat} (f : Fresh h h1 own)
    (hb : h b = some (.buffer size bs)) (g : Grew h1 h2 b lo hi []) :
    Grew h h2 b lo hi own ∧ Live h2 own ∧ Agree h1 h2 own := by
  have hn : b ∉ own := by
    intro hc
    rw [f.new b hc] at hb
    exact nomatch hb
  have ha : Agree h1 h2 own := by
    intro a ha
    exact g.rest a (fun e => hn (e ▸ ha)) (by simp)
  refine ⟨⟨f.new, ?_, ?_⟩, ?_, ha⟩
  · intro a hab hao
    rw [g.rest a hab (by simp), f.rest a hao]
  · obtain ⟨s, b1, b2, e1, e2, e3⟩ := g.bytes
    rw [f.rest b hn] at e1
    exact ⟨s, b1, b2, e1, e2, e3⟩
  · intro a hao
    rw [ha a hao]
    exact f.live a hao

theorem Agree.trans {h h1 h2 : Heap} {own : List Nat} (a1 : Agree h h1 own) (a2 : Agree h1 h2 own) : Agree h h2 own :=
  fun a ha => by rw [a2 a ha, a1 a ha]

theorem SameBytes.trans {h h1 h2 : Heap} {b lo hi : Nat} (s1 : SameBytes h h1 b lo hi) (s2 : SameBytes h1 h2 b lo hi) :
    SameBytes h h2 b lo hi := by
  obtain ⟨s, b1, b2, e1, e2, e3⟩ := s1
  obtain ⟨s', b1', b2', f1, f2, f3⟩ := s2
  rw [e2] at f1
  cases f1
  exact ⟨s, b1, b2', e1, f2, fun i h1 h2 => by rw [f3 i h1 h2, e3 i h1 h2]⟩

theorem SameBytes.dropped {h h' : Heap} {b lo hi : Nat} {own : List Nat} (s : SameBytes h h' b lo hi) (hb : b ∉ own) :
    SameBytes h (h'.drop own) b lo hi := by
  obtain ⟨s, b1, b2, e1, e2, e3⟩ := s
  exact ⟨s, b1, b2, e1, by rw [drop_of_not_mem hb, e2], e3⟩

/-- Whoever runs `read`, now or later, gets `v` and frees `own`, as long as the bytes of the buffer and
the blocks are as they are. -/
def Readable {α : Type} (read : Side → M α) (h : Heap) (v : α) (b lo hi : Nat) (own : List Nat) : Prop :=
  ∀ h', SameBytes h h' b lo hi → Agree h h' own → ∀ s, Sat (read s) h' fun v' h'' => v' = v ∧ h'' = h'.drop own

theorem Readable.later {α : Type} {read : Side → M α} {h h1 : Heap} {v : α} {b lo hi : Nat} {own : List Nat}
    (r : Readable read h v b lo hi own) (s : SameBytes h h1 b lo hi) (a : Agree h h1 own) :
    Readable read h1 v b lo hi own :=
  fun h' s' a' => r h' (s.trans s') (a.trans a')

/-- The same without a buffer. -/
def Takeable {α : Type} (take : Side → M α) (h : Heap) (v : α) (own : List Nat) : Prop :=
  ∀ h', Agree h h' own → ∀ s, Sat (take s) h' fun v' h'' => v' = v ∧ h'' = h'.drop own

theorem Takeable.later {α : Type} {take : Side → M α} {h h1 : Heap} {v : α} {own : List Nat}
    (r : Takeable take h v own) (a : Agree h h1 own) : Takeable take h1 v own :=
  fun h' a' => r h' (a.trans a')

/-! ### What is to be shown of the functions for parts of a value -/

/-- What is written can be read. -/
def World.Writes (w : World) (f : Nat) : Prop :=
  ∀ s t v l b off size bs h, w.Typed f t v → w.layout.get t = some l → l.align ∣ off → off + l.size ≤ size →
    h b = some (.buffer size bs) →
    Sat ((w.fns f).write s t v b off) h fun _ h' => ∃ own, Grew h h' b off (off + l.size) own ∧ Live h' own ∧
      Readable (fun s => (w.fns f).read s t b off) h' v b off (off + l.size) own

/-- What is lowered can be lifted, and has the FFI types of its type. -/
def World.Lowers (w : World) (f : Nat) : Prop :=
  ∀ s t v h, w.Typed f t v →
    Sat ((w.fns f).lower s t v) h fun fs h' => ∃ own, Fresh h h' own ∧ w.ffi.get t = some (fs.map FfiVal.ty) ∧
      Takeable (fun s => (w.fns f).lift s t fs) h' v own

/-! ### Several values -/

theorem writeSlots_sat {w : World} {f : Nat} (hw : w.Writes f) (s : Side) (b off n size : Nat) (align : Nat)
    (ha : align ∣ off) (hsz : off + n ≤ size) : ∀ (slots : Slots) (lo : Nat) (h : Heap) (bs : Nat → Option Nat),
    SlotsOk w.layout slots n align → (∀ x ∈ slots, w.Typed f x.1 x.2.2) → (∀ x ∈ slots, lo ≤ x.2.1) →
    h b = some (.buffer size bs) →
    Sat (writeSlots ((w.fns f).write s) b off slots) h fun _ h' => ∃ own,
      Grew h h' b (off + lo) (off + n) own ∧ Live h' own ∧
      Readable (fun s => readPlaces ((w.fns f).read s) b off (slots.map placeOf)) h' (slots.map fun x => x.2.2) b
        (off + lo) (off + n) own := by
  intro slots
  induction slots with
  | nil =>
    intro lo h bs _ _ _ hb
    refine Sat.pure ⟨[], Grew.refl hb _ _, by simp [Live], ?_⟩
    intro h' _ _ s
    exact Sat.pure ⟨rfl, (drop_nil _).symm⟩
  | cons x slots ih =>
    intro lo h bs hok hty hlo hb
    obtain ⟨t, o, v⟩ := x
    obtain ⟨l, hl, i1, i2, i3⟩ := hok.inside (t, o, v) (by simp)
    have hap := List.pairwise_cons.1 hok.apart
    have hlo' : lo ≤ o := hlo (t, o, v) (by simp)
    simp only at hl i1 i2 i3
    simp only [writeSlots]
    refine Sat.bind ((hw s t v l b (off + o) size bs h (hty (t, o, v) (by simp)) hl
      (Nat.dvd_add (Nat.dvd_trans i3 ha) i2) (by omega) hb).imp ?_)
    rintro _ h1 ⟨o1, g1, live1, r1⟩
    obtain ⟨bs1, hb1⟩ := g1.size hb
    refine (ih (o + l.size) h1 bs1 ⟨fun x hx => hok.inside x (by simp [hx]), hap.2⟩ (fun x hx => hty x (by simp [hx]))
      (fun y hy => hap.1 y hy l hl) hb1).imp ?_
    rintro _ h2 ⟨o2, g2, live2, r2⟩
    have hdis : ∀ a ∈ o1, a ∉ o2 := fun a h1 h2 => live1 a h1 (g2.new a h2)
    have hagree : Agree h1 h2 o1 := fun a ha => g2.rest a (fun e => g1.notMem (e ▸ ha)) (hdis a ha)
    refine ⟨o1 ++ o2, ((g1.mono (lo' := off + lo) (hi' := off + n) (by omega) (by omega)).trans
      (g2.mono (lo' := off + lo) (by omega) (Nat.le_refl _))).1, ?_, ?_⟩
    · intro a ha
      rcases List.mem_append.1 ha with ha | ha
      · rw [hagree a ha]
        exact live1 a ha
      · exact live2 a ha
    · intro h3 sb ag s
      have r1' := r1.later (g2.same (by omega)) hagree
      simp only [List.map_cons, placeOf, readPlaces]
      refine Sat.bind ((r1' h3 (sb.mono (by omega) (by omega)) (fun a ha => ag a (by simp [ha])) s).imp ?_)
      rintro v' h4 ⟨rfl, rfl⟩
      refine Sat.bind ((r2 (h3.drop o1) ((sb.mono (by omega) (Nat.le_refl _)).dropped g1.notMem) ?_ s).imp ?_)
      · intro a ha
        rw [drop_of_not_mem (fun h1 => hdis a h1 ha)]
        exact ag a (by simp [ha])
      · rintro vs h5 ⟨rfl, rfl⟩
        exact Sat.pure ⟨rfl, drop_drop _ _ _⟩

theorem lowerAll_sat {w : World} {f : Nat} (hw : w.Lowers f) (s : Side) : ∀ (ts : List Ty) (vs : List Val) (h : Heap),
    AllOf (w.Typed f) ts vs →
    Sat (lowerAll ((w.fns f).lower s) ts vs) h fun ps h' => ∃ own, Fresh h h' own ∧
      ts.mapM w.ffi.get = some (ps.map (·.map FfiVal.ty)) ∧
      Takeable (fun s => liftAll ((w.fns f).lift s) ts ps) h' vs own := by
  intro ts
  induction ts with
  | nil =>
    intro vs h ha
    cases vs with
    | cons _ _ => exact ha.elim
    | nil =>
      refine Sat.pure ⟨[], Fresh.refl _, rfl, ?_⟩
      intro h' _ s
      exact Sat.pure ⟨rfl, (drop_nil _).symm⟩
  | cons t ts ih =>
    intro vs h ha
    cases vs with
    | nil => exact ha.elim
    | cons v vs =>
      simp only [lowerAll]
      refine Sat.bind ((hw s t v h ha.1).imp ?_)
      rintro p h1 ⟨o1, f1, t1, r1⟩
      refine Sat.bind ((ih vs h1 ha.2).imp ?_)
      rintro ps h2 ⟨o2, f2, t2, r2⟩
      have hdis := Fresh.disjoint f1.live f2
      refine Sat.pure ⟨o1 ++ o2, f1.trans f2, ?_, ?_⟩
      · simp [t1, t2]
      · intro h3 ag s
        simp only [liftAll]
        have r1' := r1.later (Fresh.agree f1.live f2)
        refine Sat.bind ((r1' h3 (fun a ha => ag a (by simp [ha])) s).imp ?_)
        rintro v' h4 ⟨rfl, rfl⟩
        refine Sat.bind ((r2 (h3.drop o1) ?_ s).imp ?_)
        · intro a ha
          rw [drop_of_not_mem (fun h1 => hdis a h1 ha)]
          exact ag a (by simp [ha])
        · rintro vs h5 ⟨rfl, rfl⟩
          exact Sat.pure ⟨rfl, drop_drop _ _ _⟩

/-! ### Lists, maps and sets -/

/-- Lists, maps and sets. -/
def Many (t : Ty) (v : Val) : Prop :=
  (∃ i vs, t = .seq i ∧ v = .seq vs) ∨ (∃ i vs, t = .set i ∧ v = .set vs) ∨ (∃ k i es, t = .map k i ∧ v = .map es)

theorem items_known {w : World} {f : Nat} {t : Ty} {v : Val} (hm : Many t v) (ht : w.Typed (f + 1) t v) :
    ∃ slots size step places, w.itemsOf t v = some (slots, size) ∧ w.placesOf t = some (step, places) ∧ 0 < step ∧
      size < 2 ^ 31 ∧ places (size / step) = slots.map placeOf ∧ collect t (slots.map fun x => x.2.2) = v ∧
      (∀ x ∈ slots, w.Typed f x.1 x.2.2) ∧ (size = 0 → slots = []) := by
  rcases hm with ⟨i, vs, rfl, rfl⟩ | ⟨i, vs, rfl, rfl⟩ | ⟨k, i, es, rfl, rfl⟩
  · simp only [World.Typed] at ht
    obtain ⟨h1, n, hn, h0, hf⟩ := ht
    refine ⟨_, _, _, _, by simp only [World.itemsOf, hn]; rfl, by simp only [World.placesOf, hn]; rfl, h0, hf, ?_, ?_, ?_, ?_⟩
    · rw [Nat.mul_div_cancel _ h0, (listSlots_places _ _ _ _).1]
    · simp only [(listSlots_places _ _ _ _).2, collect]
    · intro x hx
      obtain ⟨e, _, _, _, hv⟩ := listSlots_ge _ _ x hx
      rw [e]
      exact h1 _ hv
    · intro hz
      have : vs.length = 0 := by
        rcases Nat.mul_eq_zero.1 hz with h | h
        · exact h
        · omega
      rw [List.length_eq_zero_iff.1 this]
      rfl
  · simp only [World.Typed] at ht
    obtain ⟨h1, ⟨n, hn, h0, hf⟩, hd⟩ := ht
    refine ⟨_, _, _, _, by simp only [World.itemsOf, hn]; rfl, by simp only [World.placesOf, hn]; rfl, h0, hf, ?_, ?_, ?_, ?_⟩
    · rw [Nat.mul_div_cancel _ h0, (listSlots_places _ _ _ _).1]
    · simp only [(listSlots_places _ _ _ _).2, collect]
      rw [setInsert_all _ _ (by simpa using hd)]
      simp
    · intro x hx
      obtain ⟨e, _, _, _, hv⟩ := listSlots_ge _ _ x hx
      rw [e]
      exact h1 _ hv
    · intro hz
      have : vs.length = 0 := by
        rcases Nat.mul_eq_zero.1 hz with h | h
        · exact h
        · omega
      rw [List.length_eq_zero_iff.1 this]
      rfl
  · simp only [World.Typed] at ht
    obtain ⟨h1, ⟨n, hn, h0, hf⟩, hd⟩ := ht
    rw [Option.map_eq_some_iff] at hn
    obtain ⟨⟨voff, n'⟩, hn, rfl⟩ := hn
    simp only at h0 hf
    refine ⟨_, _, _, _, by simp only [World.itemsOf, hn]; rfl, by simp only [World.placesOf, hn]; rfl, h0, hf, ?_, ?_, ?_, ?_⟩
    · rw [Nat.mul_div_cancel _ h0, (entrySlots_places _ _ _ _ _ _).1]
    · simp only [(entrySlots_places _ _ _ _ _ _).2, collect]
      rw [mapInsert_all _ _ (by simpa using hd)]
      simp
    · intro x hx
      have hx' : ∀ (es : List (Val × Val)) (o : Nat), (∀ e ∈ es, w.Typed f k e.1 ∧ w.Typed f i e.2) →
          ∀ x ∈ entrySlots k i voff n' o es, w.Typed f x.1 x.2.2 := by
        intro es
        induction es with
        | nil => intro o _ x hx; simp [entrySlots] at hx
        | cons e es ih =>
          intro o he x hx
          obtain ⟨a, c⟩ := e
          simp only [entrySlots, List.mem_cons] at hx
          rcases hx with rfl | rfl | hx
          · exact (he (a, c) (by simp)).1
          · exact (he (a, c) (by simp)).2
          · exact ih _ (fun e h => he e (by simp [h])) x hx
      exact hx' es 0 h1 x hx
    · intro hz
      have : es.length = 0 := by
        rcases Nat.mul_eq_zero.1 hz with h | h
        · exact h
        · omega
      rw [List.length_eq_zero_iff.1 this]
      rfl

theorem castTo_i32_small {n : Nat} (h : n < 2 ^ 31) : castTo .i32 n = n := by
  refine castTo_id ?_
  simp only [IntTy.InRange, IntTy.signed, IntTy.width, if_true, Nat.reduceMul, Nat.reduceSub, Int.reducePow, Int.reduceNeg]
  omega

theorem newBlock_sat {k : Machine} (hk : k.Ok) (b : Block) (h : Heap) :
    Sat (newBlock k b) h fun a h' => 0 < a ∧ a < 2 ^ 64 ∧ h' = h.set a (some b) ∧ Fresh h h' [a] := by
  unfold Sat newBlock
  cases ha : k.newAddr h with
  | none => trivial
  | some a =>
    obtain ⟨f1, f2, f3⟩ := hk.fresh h a ha
    refine ⟨f2, f3, rfl, by simp [f1], ?_, by simp [Live, Heap.set]⟩
    intro x hx
    simp only [List.mem_singleton] at hx
    simp [Heap.set, hx]

/-- The buffer for items: nothing for no bytes. -/
theorem itemsAlloc_sat {k : Machine} (hk : k.Ok) (s : Side) {size : Nat} (hsz : size < 2 ^ 31) (h : Heap) :
    Sat (itemsAlloc s k size) h fun r h' => r.2 = size ∧ r.1 < 2 ^ 64 ∧
      ((size = 0 ∧ h' = h) ∨ (0 < size ∧ ∃ bs, h' r.1 = some (.buffer size bs) ∧ Fresh h h' [r.1])) := by
  have key : Sat (allocBuffer k size) h fun a h' => a < 2 ^ 64 ∧
      ((size = 0 ∧ h' = h) ∨ (0 < size ∧ ∃ bs, h' a = some (.buffer size bs) ∧ Fresh h h' [a])) := by
    unfold allocBuffer
    by_cases hz : size = 0
    · rw [if_pos hz]
      exact Sat.pure' ⟨by omega, Or.inl ⟨hz, rfl⟩⟩
    · rw [if_neg hz, if_neg (by omega)]
      refine (newBlock_sat hk _ h).imp ?_
      rintro a h' ⟨_, h2, rfl, h4⟩
      exact ⟨h2, Or.inr ⟨by omega, fun _ => none, by simp [Heap.set], h4⟩⟩
  cases s with
  | rust =>
    simp only [itemsAlloc, rustAlloc]
    refine Sat.bind (key.imp ?_)
    rintro a h' ⟨h1, h2⟩
    exact Sat.pure ⟨rfl, h1, h2⟩
  | kotlin =>
    simp only [itemsAlloc, kotlinAlloc, castTo_i32_small hsz]
    rw [if_neg (by omega)]
    simp only [Int.toNat_natCast]
    refine Sat.bind (key.imp ?_)
    rintro a h' ⟨h1, h2⟩
    exact Sat.pure ⟨rfl, h1, h2⟩

theorem lowerBuf_sat {w : World} (hg : w.Good) {f : Nat} (hw : w.Writes f) (s : Side) {t : Ty} {v : Val}
    (hm : Many t v) (ht : w.Typed (f + 1) t v) (h : Heap) :
    Sat (w.lowerBuf (w.fns f) s t v) h fun r h' => ∃ own, r.1 < 2 ^ 64 ∧ r.2 < 2 ^ 63 ∧ Fresh h h' own ∧
      Takeable (fun s => w.liftBuf (w.fns f) s t r.1 r.2) h' v own := by
  obtain ⟨slots, size, step, places, e1, e2, h0, hsz, hpl, hcol, hty, hempty⟩ := items_known hm ht
  have hok := hg.items e1
  unfold World.lowerBuf
  refine Sat.someBind e1 ?_
  simp only [lowerItems]
  refine Sat.bind ((itemsAlloc_sat hg.machine s hsz h).imp ?_)
  rintro ⟨a, cap⟩ h1 ⟨rfl, ha, hcase⟩
  simp only at ha hcase ⊢
  have finish : ∀ h3, (cap = 0 ∨ ∃ bs, h3 a = some (.buffer cap bs)) → ∀ (own : List Nat) (s : Side),
      Sat (readPlaces ((w.fns f).read s) a 0 (slots.map placeOf)) h3
        (fun vs h4 => vs = slots.map (fun x => x.2.2) ∧ h4 = h3.drop own) → a ∉ own →
      Sat (w.liftBuf (w.fns f) s t a cap) h3 fun v' h4 => v' = v ∧ h4 = h3.drop (if cap = 0 then own else a :: own) := by
    intro h3 hb own s hr hn
    unfold World.liftBuf
    refine Sat.someBind e2 ?_
    simp only [liftItems]
    rw [if_neg (by omega), if_neg (by omega), hpl]
    refine Sat.bind (Sat.bind (hr.imp ?_))
    rintro vs h4 ⟨rfl, rfl⟩
    have hf : Sat (freeBuffer a cap) (h3.drop own) fun _ h4 => h4 = h3.drop (if cap = 0 then own else a :: own) := by
      unfold freeBuffer
      by_cases hz : cap = 0
      · simp only [Sat, hz, if_true]
      · obtain ⟨bs, hb⟩ := hb.resolve_left hz
        simp only [Sat, hz, if_false, drop_of_not_mem hn, hb, if_true, set_none, drop_cons]
    refine Sat.bind (hf.imp ?_)
    rintro _ h5 rfl
    exact Sat.pure (Sat.pure ⟨hcol, rfl⟩)
  rcases hcase with ⟨hz, rfl⟩ | ⟨hpos, bs, hb, hfr⟩
  · rw [hempty hz]
    refine Sat.bind (Sat.pure (Sat.pure ⟨[], ha, by omega, Fresh.refl _, ?_⟩))
    intro h3 _ s
    have := finish h3 (Or.inl hz) [] s (by rw [hempty hz]; exact Sat.pure ⟨rfl, (drop_nil _).symm⟩) (by simp)
    simpa only [hz, if_true] using this
  · refine Sat.bind ((writeSlots_sat hw s a 0 cap cap 8 (by omega) (by omega) slots 0 h1 bs hok hty (by simp) hb).imp ?_)
    rintro _ h2 ⟨own, g, live, r⟩
    simp only [Nat.zero_add] at g r
    obtain ⟨bs2, hb2⟩ := g.size hb
    refine Sat.pure ⟨a :: own, ha, by omega, ⟨?_, ?_, ?_⟩, ?_⟩
    · intro x hx
      rcases List.mem_cons.1 hx with rfl | hx
      · exact hfr.new x (by simp)
      · have hxa : x ≠ a := fun e => g.notMem (e ▸ hx)
        rw [← hfr.rest x (by simpa using hxa)]
        exact g.new x hx
    · intro x hx
      simp only [List.mem_cons, not_or] at hx
      rw [g.rest x hx.1 hx.2, hfr.rest x (by simpa using hx.1)]
    · intro x hx
      rcases List.mem_cons.1 hx with rfl | hx
      · rw [hb2]
        exact Option.some_ne_none _
      · exact live x hx
    · intro h3 ag s
      have hb3 : h3 a = some (.buffer cap bs2) := by rw [ag a (by simp), hb2]
      have hr := r h3 ⟨cap, bs2, bs2, hb2, hb3, fun _ _ _ => rfl⟩ (fun x hx => ag x (by simp [hx])) s
      have := finish h3 (Or.inr ⟨bs2, hb3⟩) own s hr g.notMem
      simpa only [if_neg (Nat.ne_of_gt hpos)] using this

/-! ### Boxes -/

theorem boxOf_sat {w : World} (hg : w.Good) {f : Nat} (hl : w.Lowers f) (s : Side) {t : Ty} {v : Val}
    (ht : w.Typed f t v) (h : Heap) :
    Sat (w.boxOf (w.fns f) s t v) h fun a h' => a < 2 ^ 64 ∧ Fresh h h' [a] ∧
      Takeable (fun s => w.unbox (w.fns f) s t a) h' v [a] := by
  have box : ∀ h, Sat (newBox w.machine v) h fun a h' => a < 2 ^ 64 ∧ Fresh h h' [a] ∧
      Takeable (fun s => w.unbox (w.fns f) s t a) h' v [a] := by
    intro h
    unfold newBox
    refine (newBlock_sat hg.machine _ h).imp ?_
    rintro a h' ⟨h1, h2, rfl, h4⟩
    refine ⟨h2, h4, ?_⟩
    intro h3 ag s
    have hb : h3 a = some (.boxed v) := by rw [ag a (by simp)]; simp [Heap.set]
    have htake : ∀ {Q : Val → Heap → Prop}, Q v (h3.drop [a]) → Sat (takeBox a) h3 Q := by
      intro Q hq
      unfold Sat takeBox
      simp only [hb, set_none]
      exact hq
    cases s with
    | rust => exact htake ⟨rfl, rfl⟩
    | kotlin =>
      simp only [World.unbox]
      refine Sat.bind (htake ?_)
      refine Sat.bind ((hl .rust t v (h3.drop [a]) ht).imp ?_)
      rintro fs h5 ⟨own, fr, _, tk⟩
      refine (tk h5 (fun _ _ => rfl) .kotlin).imp ?_
      rintro v' h6 ⟨rfl, rfl⟩
      exact ⟨rfl, fr.drop⟩
  cases s with
  | rust => exact box h
  | kotlin =>
    simp only [World.boxOf]
    refine Sat.bind ((hl .kotlin t v h ht).imp ?_)
    rintro fs h1 ⟨own, fr, _, tk⟩
    refine Sat.bind ((tk h1 (fun _ _ => rfl) .rust).imp ?_)
    rintro v' h2 ⟨rfl, rfl⟩
    rw [fr.drop]
    exact box h

/-! ### Writing and reading -/

theorem scalar_sat (s : Side) {h : Heap} {b off n x size : Nat} {bs : Nat → Option Nat} (g : Nat → Val) (hx : x < 256 ^ n)
    (hb : h b = some (.buffer size bs)) (hsz : off + n ≤ size) (hd : n ∣ off) :
    Sat (store s b off n x) h fun _ h' => ∃ own, Grew h h' b off (off + n) own ∧ Live h' own ∧
      Readable (fun s => do let x ← load s b off n; pure (g x)) h' (g x) b off (off + n) own := by
  refine (store_sat hx hb hsz hd).imp ?_
  rintro _ h' ⟨n1, g1⟩
  refine ⟨[], g1, by simp [Live], ?_⟩
  intro h2 sb _ s
  exact Sat.bind (load_sat (n1.congr sb) hd (Sat.pure ⟨rfl, (drop_nil _).symm⟩))

theorem intBits_lt (t : IntTy) (n : Int) : intBits t n < 256 ^ t.width := by
  cases t <;> simp only [intBits, IntTy.width, Nat.reduceMul, Nat.reducePow, Int.reducePow] <;> omega

theorem castTo_intBits {t : IntTy} {n : Int} (h : t.InRange n) : castTo t (intBits t n) = n := by
  have e : castTo t (intBits t n) = castTo t n := by
    cases t <;>
      simp only [castTo, intBits, IntTy.signed, IntTy.width, if_true, if_false, true_and, Bool.false_eq_true,
        false_and, Nat.reduceMul, Nat.reduceSub, Int.reducePow, Int.reduceNeg] <;>
      (try split) <;> (try split) <;> omega
  rw [e, castTo_id h]

theorem someOf_some {s : Side} {v : Val} (h : isNull v = false) : someOf s v = .some v := by
  cases s <;> simp [someOf, h]

theorem writes_succ {w : World} (hg : w.Good) {f : Nat} (hw : w.Writes f) (hl : w.Lowers f) : w.Writes (f + 1) := by
  intro s t v l b off size bs h ht hly had hsz hb
  show Sat (w.write (w.fns f) s t v b off) h fun _ h' => ∃ own, Grew h h' b off (off + l.size) own ∧ Live h' own ∧
      Readable (fun s => w.read (w.fns f) s t b off) h' v b off (off + l.size) own
  have many : Many t v → w.Typed (f + 1) t v → w.layout.get t = some ⟨16, 8⟩ →
      Sat (do
        let (a, cap) ← w.lowerBuf (w.fns f) s t v
        writeBuffer b off a cap) h fun _ h' => ∃ own, Grew h h' b off (off + l.size) own ∧ Live h' own ∧
      Readable (fun s => do
        let (a, cap) ← readBuffer b off
        w.liftBuf (w.fns f) s t a cap) h' v b off (off + l.size) own := by
    intro hm ht hly'
    rw [hly] at hly'
    cases hly'
    simp only at had hsz ⊢
    refine Sat.bind ((lowerBuf_sat hg hw s hm ht h).imp ?_)
    rintro ⟨a, cap⟩ h1 ⟨own, ha, hc, fr, tk⟩
    simp only at ha hc tk ⊢
    have hn : b ∉ own := by
      intro hc
      rw [fr.new b hc] at hb
      exact nomatch hb
    have hb1 : h1 b = some (.buffer size bs) := by rw [fr.rest b hn, hb]
    unfold writeBuffer
    refine Sat.bind ((store_sat (by omega) hb1 (by omega) had).imp ?_)
    rintro _ h2 ⟨n1, g1⟩
    obtain ⟨bs2, hb2⟩ := g1.size hb1
    refine (store_sat (by omega) hb2 (by omega) (by omega)).imp ?_
    rintro _ h3 ⟨n2, g2⟩
    have g := ((g1.mono (lo' := off) (hi' := off + 16) (by omega) (by omega)).trans
      (g2.mono (lo' := off) (hi' := off + 16) (by omega) (by omega))).1
    obtain ⟨k1, k2, k3⟩ := fr.grew hb g
    refine ⟨own, k1, k2, ?_⟩
    intro h4 sb ag s
    have m1 := (n1.congr (g2.same (lo' := off) (hi' := off + 8) (by omega))).congr (sb.mono (Nat.le_refl _) (by omega))
    have m2 := n2.congr (sb.mono (by omega) (by omega))
    unfold readBuffer
    refine Sat.bind (Sat.bind (load_sat m1 had (Sat.bind (load_sat m2 (by omega) (Sat.pure ?_)))))
    exact tk h4 (k3.trans ag) s
  have hall := ht
  unfold World.Typed at ht
  split at ht
  · -- integers
    rename_i it x
    simp only [LayoutMap.get, Option.some.injEq] at hly
    subst hly
    have := scalar_sat s (fun x => .int (castTo it x)) (intBits_lt it x) hb hsz had
    rw [castTo_intBits ht] at this
    exact this
  · rename_i x
    simp only [LayoutMap.get, Option.some.injEq] at hly
    subst hly
    exact scalar_sat s (fun x => .float x) (by omega) hb hsz had
  · rename_i x
    simp only [LayoutMap.get, Option.some.injEq] at hly
    subst hly
    exact scalar_sat s (fun x => .float x) (by omega) hb hsz had
  · rename_i x
    simp only [LayoutMap.get, Option.some.injEq] at hly
    subst hly
    have := scalar_sat s (n := 1) (x := if x then 1 else 0) (fun x => .bool (x == 1)) (by split <;> omega) hb hsz had
    have e : ((if x = true then 1 else 0) == 1) = x := by cases x <;> rfl
    rw [e] at this
    exact this
  · -- strings
    rename_i x
    simp only [LayoutMap.get, Option.some.injEq] at hly
    subst hly
    simp only at hsz had ⊢
    refine (writeText_sat hg.machine ht hb hsz had).imp ?_
    rintro _ h1 ⟨own, ta, g⟩
    refine ⟨own, g, ?_, ?_⟩
    · intro a ha hc
      obtain ⟨a', cap, _, _, _, hcase⟩ := ta
      rcases hcase with ⟨_, _, rfl⟩ | ⟨_, h2, rfl⟩
      · simp at ha
      · simp only [List.mem_singleton] at ha
        subst ha
        rw [h2] at hc
        exact nomatch hc
    · intro h2 sb ag s
      simp only [World.read]
      refine Sat.bind ((readText_sat (ta.congr sb ag) had).imp ?_)
      rintro x' h3 ⟨rfl, rfl⟩
      exact Sat.pure ⟨rfl, rfl⟩
  · rename_i x
    simp only [LayoutMap.get, Option.some.injEq] at hly
    subst hly
    exact scalar_sat s (fun x => .handle x) (by omega) hb hsz had
  · -- no value
    rename_i t
    obtain ⟨l', o, i, e1, e2, e3, hp⟩ := C70_option _ _ hg.layout hg.names t ht.1
    rw [hly] at e1
    cases e1
    have p1 := hp.inside ⟨0, 1, 1⟩ (by simp)
    simp only at p1
    simp only [World.write]
    refine (store_sat (by omega) hb (by omega) (Nat.one_dvd _)).imp ?_
    rintro _ h1 ⟨n1, g1⟩
    refine ⟨[], g1.mono (Nat.le_refl _) (by omega), by simp [Live], ?_⟩
    intro h2 sb _ s
    simp only [World.read]
    refine Sat.bind (load_sat (n1.congr (sb.mono (Nat.le_refl _) (by omega))) (Nat.one_dvd _) ?_)
    exact Sat.pure ⟨rfl, (drop_nil _).symm⟩
  · -- some value
    rename_i t v
    obtain ⟨hd, _, hty, hnull, _⟩ := ht
    obtain ⟨l', o, i, e1, e2, e3, hp⟩ := C70_option _ _ hg.layout hg.names t hd
    rw [hly] at e1
    cases e1
    have p1 := hp.inside ⟨0, 1, 1⟩ (by simp)
    have p2 := hp.inside ⟨o, i.size, i.align⟩ (by simp)
    have p3 := hp.aligned ⟨o, i.size, i.align⟩ (by simp)
    have p4 : 0 + 1 ≤ o := by
      have := (List.pairwise_cons.1 hp.apart).1 ⟨o, i.size, i.align⟩ (by simp)
      exact this
    simp only at p1 p2 p3
    simp only [World.write, hnull, Bool.false_eq_true, and_false, if_false]
    refine Sat.bind ((store_sat (by omega) hb (by omega) (Nat.one_dvd _)).imp ?_)
    rintro _ h1 ⟨n1, g1⟩
    obtain ⟨bs1, hb1⟩ := g1.size hb
    refine Sat.someBind e2 ?_
    refine (hw s t v i b (off + o) size bs1 h1 hty e3 (Nat.dvd_add (Nat.dvd_trans p3.2 had) p3.1) (by omega) hb1).imp ?_
    rintro _ h2 ⟨own, g2, live, r⟩
    have g := ((g1.mono (lo' := off) (hi' := off + l.size) (by omega) (by omega)).trans
      (g2.mono (lo' := off) (hi' := off + l.size) (by omega) (by omega))).1
    refine ⟨own, by simpa using g, live, ?_⟩
    intro h3 sb ag s
    simp only [World.read]
    refine Sat.bind (load_sat ((n1.congr (g2.same (by omega))).congr (sb.mono (Nat.le_refl _) (by omega))) (Nat.one_dvd _) ?_)
    rw [if_pos rfl]
    refine Sat.someBind e2 ?_
    refine Sat.bind ((r h3 (sb.mono (by omega) (by omega)) ag s).imp ?_)
    rintro v' h4 ⟨rfl, rfl⟩
    exact Sat.pure ⟨someOf_some hnull, rfl⟩
  · exact many (Or.inl ⟨_, _, rfl, rfl⟩) hall rfl
  · exact many (Or.inr (Or.inl ⟨_, _, rfl, rfl⟩)) hall rfl
  · exact many (Or.inr (Or.inr ⟨_, _, _, rfl, rfl⟩)) hall rfl
  · -- boxes
    rename_i t v
    simp only [LayoutMap.get, Option.some.injEq] at hly
    subst hly
    simp only at hsz had ⊢
    simp only [World.write]
    refine Sat.bind ((boxOf_sat hg hl s ht h).imp ?_)
    rintro a h1 ⟨ha, fr, tk⟩
    have hn : b ∉ [a] := by
      intro hc
      rw [fr.new b hc] at hb
      exact nomatch hb
    have hb1 : h1 b = some (.buffer size bs) := by rw [fr.rest b hn, hb]
    refine (store_sat (by omega) hb1 (by omega) had).imp ?_
    rintro _ h2 ⟨n1, g1⟩
    obtain ⟨k1, k2, k3⟩ := fr.grew hb g1
    refine ⟨[a], k1, k2, ?_⟩
    intro h4 sb ag s
    simp only [World.read]
    refine Sat.bind (load_sat (n1.congr sb) had ?_)
    refine Sat.bind ((tk h4 (k3.trans ag) s).imp ?_)
    rintro v' h5 ⟨rfl, rfl⟩
    exact Sat.pure ⟨rfl, rfl⟩
  · -- records
    rename_i n vs
    obtain ⟨fields, hd, hty⟩ := ht
    obtain ⟨l', offs, slots, e1, e2, e3, hp⟩ := C70_record _ _ hg.layout hg.names n fields hd
    rw [hly] at e1
    cases e1
    obtain ⟨q1, q2⟩ := fieldSlots_places fields offs vs (slots_length _ _ _ e3) (allOf_length _ _ hty)
    simp only [World.write]
    refine Sat.someBind (hg.recordFields hd) (Sat.someBind e2 ?_)
    refine (writeSlots_sat hw s b off l.size size l.align had hsz _ 0 h bs (fieldSlots_ok _ _ vs _ _ _ e3 hp)
      (fieldSlots_typed _ _ _ hty) (by simp) hb).imp ?_
    rintro _ h1 ⟨own, g, live, r⟩
    refine ⟨own, g, live, ?_⟩
    intro h2 sb ag s
    simp only [World.read]
    refine Sat.someBind (hg.recordFields hd) (Sat.someBind e2 ?_)
    have := r h2 sb ag s
    rw [q1, q2] at this
    refine Sat.bind (this.imp ?_)
    rintro v' h5 ⟨rfl, rfl⟩
    exact Sat.pure ⟨rfl, rfl⟩
  · -- enums
    rename_i n i vs
    obtain ⟨hi, variants, fields, hd, hv, hty⟩ := ht
    obtain ⟨l', offs, slots, e1, e2, e3, hp⟩ := C70_variant _ _ hg.layout hg.names n false variants hd fields
      (List.mem_of_getElem? hv)
    rw [hly] at e1
    cases e1
    obtain ⟨q1, q2⟩ := fieldSlots_places fields offs vs (slots_length _ _ _ e3) (allOf_length _ _ hty)
    have p1 := hp.inside ⟨0, 4, 4⟩ (by simp)
    have p2 := hp.aligned ⟨0, 4, 4⟩ (by simp)
    have p3 := List.pairwise_cons.1 hp.apart
    simp only at p1 p2
    have hrange : IntTy.InRange .i32 (i : Int) := by
      simp only [IntTy.InRange, IntTy.signed, IntTy.width, if_true, Nat.reduceMul, Nat.reduceSub, Int.reducePow, Int.reduceNeg]
      omega
    have hplaced : WellPlaced slots l.size l.align :=
      ⟨fun s hs => hp.inside s (by simp [hs]), p3.2, fun s hs => hp.aligned s (by simp [hs])⟩
    have hlo : ∀ x ∈ fieldSlots fields offs vs, 4 ≤ x.2.1 := by
      intro x hx
      have := fieldSlots_offsets fields offs vs slots e3 x hx
      obtain ⟨s, s1, s2⟩ := this
      have := p3.1 s s1
      simp only at this
      omega
    simp only [World.write]
    refine Sat.someBind (hg.enumVariants hd) (Sat.someBind hv (Sat.someBind e2 ?_))
    refine Sat.bind ((store_sat (intBits_lt .i32 i) hb (by simp only [IntTy.width]; omega) (Nat.dvd_trans p2.2 had)).imp ?_)
    rintro _ h1 ⟨n1, g1⟩
    simp only [IntTy.width] at n1 g1
    obtain ⟨bs1, hb1⟩ := g1.size hb
    refine (writeSlots_sat hw s b off l.size size l.align had hsz _ 4 h1 bs1 (fieldSlots_ok _ _ vs _ _ _ e3 hplaced)
      (fieldSlots_typed _ _ _ hty) hlo hb1).imp ?_
    rintro _ h2 ⟨own, g2, live, r⟩
    have g := ((g1.mono (lo' := off) (hi' := off + l.size) (by omega) (by omega)).trans
      (g2.mono (lo' := off) (hi' := off + l.size) (by omega) (by omega))).1
    refine ⟨own, by simpa using g, live, ?_⟩
    intro h3 sb ag s
    simp only [World.read]
    refine Sat.someBind (hg.enumVariants hd) ?_
    refine Sat.bind (load_sat ((n1.congr (g2.same (by omega))).congr (sb.mono (Nat.le_refl _) (by omega)))
      (Nat.dvd_trans p2.2 had) ?_)
    rw [castTo_intBits hrange, if_neg (by omega)]
    simp only [Int.toNat_natCast]
    refine Sat.someBind hv (Sat.someBind e2 ?_)
    have := r h3 (sb.mono (by omega) (Nat.le_refl _)) ag s
    rw [q1, q2] at this
    refine Sat.bind (this.imp ?_)
    rintro v' h5 ⟨rfl, rfl⟩
    exact Sat.pure ⟨rfl, rfl⟩
  · -- custom types
    rename_i n t
    obtain ⟨hd, hty⟩ := ht
    simp only [LayoutMap.get] at hly
    exact hw s t v l b off size bs h hty hly had hsz hb
  · exact ht.elim

/-! ### Lowering and lifting -/

theorem dflt_ty (t : Ffi) : (FfiVal.dflt t).ty = t := by cases t <;> rfl

theorem intFfi_get (m : FfiMap) (t : IntTy) : m.get (.int t) = some [intFfi t] := by cases t <;> rfl

theorem liftInt_lowerInt (s s' : Side) {t : IntTy} {n : Int} (h : t.InRange n) : liftInt s' t (lowerInt s t n) = n := by
  cases s <;> cases s' <;> exact ((castTo_jni t n).trans (castTo_id h))

theorem castTo_handle {n : Nat} (h : n < 2 ^ 64) : (castTo .u64 (castTo .i64 n)).toNat = n := by
  have e : castTo .u64 (castTo .i64 (n : Int)) = n := by
    rw [show castTo .u64 (castTo .i64 (n : Int)) = castTo .u64 n from castTo_jni .u64 n]
    refine castTo_id ?_
    simp only [IntTy.InRange, IntTy.signed, IntTy.width, if_false, Bool.false_eq_true, Nat.reduceMul, Int.reducePow]
    omega
  rw [e, Int.toNat_natCast]

theorem castTo_positive {n : Nat} (h : n < 2 ^ 63) : castTo .i64 n = n := by
  refine castTo_id ?_
  simp only [IntTy.InRange, IntTy.signed, IntTy.width, if_true, Nat.reduceMul, Nat.reduceSub, Int.reducePow, Int.reduceNeg]
  omega

theorem arr_item {w : World} {f : Nat} {t : Ty} {v : Val} (hs : seqFfi t ≠ .byteBuffer) (ht : w.Typed f t v) (s : Side) :
    ∃ x, arrItem s t v = some x ∧ ∀ s', itemOfArr s' t x = some v := by
  cases f with
  | zero => exact ht.elim
  | succ f =>
    unfold World.Typed at ht
    split at ht
    all_goals first | exact absurd rfl hs | skip
    · exact ⟨_, rfl, fun s' => by simp only [itemOfArr, liftInt_lowerInt s s' ht]⟩
    · exact ⟨_, rfl, fun s' => rfl⟩
    · exact ⟨_, rfl, fun s' => rfl⟩
    · exact ht.elim

theorem arr_items {w : World} {f : Nat} {t : Ty} (hs : seqFfi t ≠ .byteBuffer) (s : Side) : ∀ (vs : List Val),
    (∀ v ∈ vs, w.Typed f t v) → ∃ xs, vs.mapM (arrItem s t) = some xs ∧ ∀ s', xs.mapM (itemOfArr s' t) = some vs
  | [], _ => ⟨[], rfl, fun _ => rfl⟩
  | v :: vs, h => by
    obtain ⟨x, x1, x2⟩ := arr_item hs (h v (by simp)) s
    obtain ⟨xs, xs1, xs2⟩ := arr_items hs s vs (fun v hv => h v (by simp [hv]))
    exact ⟨x :: xs, by simp [x1, xs1], fun s' => by simp [x2, xs2]⟩

/-- Options that are passed as one value. -/
theorem small_option {w : World} {f : Nat} {t : Ty} {v : Val} {ffi : List Ffi} (hs : standard (.option t) = some ffi)
    (ht : w.Typed (f + 1) (.option t) v) (s : Side) :
    ∃ x, lowerSmallOption s t v = some x ∧ ffi = [x.ty] ∧ ∀ s', liftSmallOption s' t x = some v := by
  simp only [standard] at hs
  cases v with
  | none =>
    simp only [World.Typed] at ht
    obtain ⟨_, hb, hc⟩ := ht
    unfold optionFfi at hs
    split at hs
    all_goals first
      | contradiction
      | (exfalso; exact hc _ rfl)
      | (cases hs; cases s <;> exact ⟨_, rfl, rfl, fun s' => by cases s' <;> rfl⟩)
  | some v =>
    simp only [World.Typed] at ht
    obtain ⟨_, hb, ht, hnull, hres⟩ := ht
    clear hnull
    cases f with
    | zero => exact ht.elim
    | succ f =>
      have ints : ∀ (it : IntTy), t = .int it → it.width ≤ 4 → ffi = [.int64] →
          ∃ x, lowerSmallOption s t (.some v) = some x ∧ ffi = [x.ty] ∧ ∀ s', liftSmallOption s' t x = some (.some v) := by
        rintro it rfl hw4 rfl
        cases v <;> simp only [World.Typed] at ht
        rename_i x
        obtain ⟨h1, h2⟩ := small_fits hw4 ht
        cases s <;> refine ⟨_, rfl, rfl, fun s' => ?_⟩ <;> cases s' <;>
          simp [liftSmallOption, Kotlin.liftOptionInt, Rust.liftOptionInt, Rust.lowerOptionInt, Kotlin.lowerOptionInt,
            castTo_id h1, castTo_id ht, h2]
      unfold optionFfi at hs
      split at hs
      all_goals first
        | contradiction
        | (cases hs; exact ints _ rfl (by decide) rfl)
        | (cases hs; cases v <;> simp only [World.Typed] at ht)
      · rename_i b
        cases s <;> refine ⟨_, rfl, rfl, fun s' => ?_⟩ <;> cases s' <;> cases b <;> rfl
      · rename_i b
        have hb : b ≠ 0xFFFF_FFFF := fun e => hres (Or.inl ⟨rfl, by rw [e]⟩)
        cases s <;> refine ⟨_, rfl, rfl, fun s' => ?_⟩ <;> cases s' <;>
          simp [liftSmallOption, Rust.lowerOptionF32, Kotlin.lowerOptionF32, Rust.liftOptionF32, Kotlin.liftOptionF32, hb]
      · rename_i b
        have hb : b ≠ 0xFFFF_FFFF_FFFF_FFFF := fun e => hres (Or.inr (Or.inl ⟨rfl, by rw [e]⟩))
        cases s <;> refine ⟨_, rfl, rfl, fun s' => ?_⟩ <;> cases s' <;>
          simp [liftSmallOption, Rust.lowerOptionF64, Kotlin.lowerOptionF64, Rust.liftOptionF64, Kotlin.liftOptionF64, hb]
      · exact ⟨_, rfl, rfl, fun s' => rfl⟩
      · rename_i h
        have hne : ¬ (h = 0 ∨ 2 ^ 63 ≤ h) := fun e => hres (Or.inr (Or.inr ⟨_, h, rfl, rfl, e⟩))
        have c1 := castTo_handle ht
        have c2 := castTo_positive (n := h) (by omega)
        refine ⟨_, rfl, rfl, fun s' => ?_⟩
        cases s' <;> simp only [liftSmallOption, c1] <;> rw [c2, if_pos (by omega)]
  | _ => simp only [World.Typed] at ht

theorem lowers_succ {w : World} (hg : w.Good) (hfirst : w.FirstFields) {f : Nat} (hw : w.Writes f) (hl : w.Lowers f) :
    w.Lowers (f + 1) := by
  intro s t v h ht
  show Sat (w.lower (w.fns f) s t v) h fun fs h' => ∃ own, Fresh h h' own ∧ w.ffi.get t = some (fs.map FfiVal.ty) ∧
      Takeable (fun s => w.lift (w.fns f) s t fs) h' v own
  have simple : ∀ fs, w.ffi.get t = some (fs.map FfiVal.ty) →
      (∀ s, w.lift (w.fns f) s t fs = M.pure v) →
      Sat (pure fs : M (List FfiVal)) h fun fs h' => ∃ own, Fresh h h' own ∧ w.ffi.get t = some (fs.map FfiVal.ty) ∧
      Takeable (fun s => w.lift (w.fns f) s t fs) h' v own := by
    intro fs h1 h2
    refine Sat.pure ⟨[], Fresh.refl _, h1, ?_⟩
    intro h' _ s
    simp only [h2]
    exact Sat.pure' ⟨rfl, (drop_nil _).symm⟩
  have opt : ∀ t', t = .option t' → w.Typed (f + 1) (.option t') v →
      Sat (w.lower (w.fns f) s t v) h fun fs h' => ∃ own, Fresh h h' own ∧ w.ffi.get t = some (fs.map FfiVal.ty) ∧
      Takeable (fun s => w.lift (w.fns f) s t fs) h' v own := by
    rintro t' rfl ht
    simp only [World.lower]
    cases hs : standard (.option t') with
    | some ffi =>
      simp only
      obtain ⟨x, x1, x2, x3⟩ := small_option hs ht s
      refine Sat.someBind x1 (simple _ ?_ ?_)
      · simp only [FfiMap.get, hs, x2]
        rfl
      · intro s'
        simp only [World.lift, hs, x3]
        rfl
    | none =>
      simp only
      cases v with
      | none =>
        simp only [World.Typed] at ht
        obtain ⟨l, l1, l2⟩ := hg.ffiOption ht.1 hs
        refine Sat.someBind l1 (simple _ ?_ ?_)
        · rw [l2]
          have e : (l.map FfiVal.dflt).map FfiVal.ty = l := by
            rw [List.map_map]
            exact (List.map_congr_left fun x _ => dflt_ty x).trans (List.map_id _)
          rw [List.map_cons, e]
          rfl
        · intro s'
          simp only [World.lift, hs]
          rfl
      | some v =>
        simp only [World.Typed] at ht
        obtain ⟨hd, _, hty, hnull, _⟩ := ht
        obtain ⟨l, l1, l2⟩ := hg.ffiOption hd hs
        refine Sat.someBind l1 ?_
        simp only [hnull, Bool.false_eq_true, and_false, if_false]
        refine Sat.bind ((hl s t' v h hty).imp ?_)
        rintro fs h1 ⟨own, fr, ty, tk⟩
        rw [l1] at ty
        cases ty
        refine Sat.pure ⟨own, fr, l2, ?_⟩
        intro h2 ag s'
        simp only [World.lift, hs, if_true]
        refine Sat.bind ((tk h2 ag s').imp ?_)
        rintro v' h3 ⟨rfl, rfl⟩
        exact Sat.pure ⟨someOf_some hnull, rfl⟩
      | _ => simp only [World.Typed] at ht
  have many : Many t v → w.ffi.get t = some [.byteBuffer] →
      (∀ s a c, w.lift (w.fns f) s t [.buf a c] = w.liftBuf (w.fns f) s t a c) →
      Sat (do
        let (a, cap) ← w.lowerBuf (w.fns f) s t v
        pure [FfiVal.buf a cap]) h fun fs h' => ∃ own, Fresh h h' own ∧ w.ffi.get t = some (fs.map FfiVal.ty) ∧
      Takeable (fun s => w.lift (w.fns f) s t fs) h' v own := by
    intro hm hffi hlift
    refine Sat.bind ((lowerBuf_sat hg hw s hm ht h).imp ?_)
    rintro ⟨a, cap⟩ h1 ⟨own, _, _, fr, tk⟩
    refine Sat.pure ⟨own, fr, hffi, ?_⟩
    simp only [hlift]
    exact tk
  have hall := ht
  unfold World.Typed at ht
  split at ht
  · exact simple _ (intFfi_get _ _) (fun s' => by simp only [World.lift, liftInt_lowerInt s s' ht]; rfl)
  · exact simple _ rfl (fun s' => rfl)
  · exact simple _ rfl (fun s' => rfl)
  · rename_i x
    exact simple _ rfl (fun s' => by cases x <;> rfl)
  · exact simple _ rfl (fun s' => rfl)
  · refine simple _ rfl (fun s' => ?_)
    simp only [World.lift, castTo_handle ht]
    rfl
  · exact opt _ rfl hall
  · exact opt _ rfl hall
  · -- lists
    rename_i t vs
    simp only [World.lower]
    by_cases hs : seqFfi t = .byteBuffer
    · rw [if_pos hs]
      refine many (Or.inl ⟨_, _, rfl, rfl⟩) ?_ (fun _ _ _ => rfl)
      simp only [FfiMap.get, standard, hs]
    · rw [if_neg hs]
      obtain ⟨xs, xs1, xs2⟩ := arr_items hs s vs ht.1
      refine Sat.someBind xs1 (simple _ rfl (fun s' => ?_))
      simp only [World.lift, xs2]
      rfl
  · exact many (Or.inr (Or.inl ⟨_, _, rfl, rfl⟩)) rfl (fun _ _ _ => rfl)
  · exact many (Or.inr (Or.inr ⟨_, _, _, rfl, rfl⟩)) rfl (fun _ _ _ => rfl)
  · -- boxes
    rename_i t v
    simp only [World.lower]
    refine Sat.bind ((boxOf_sat hg hl s ht h).imp ?_)
    rintro a h1 ⟨ha, fr, tk⟩
    refine Sat.pure ⟨[a], fr, rfl, ?_⟩
    intro h2 ag s'
    simp only [World.lift, castTo_handle ha]
    refine Sat.bind ((tk h2 ag s').imp ?_)
    rintro v' h3 ⟨rfl, rfl⟩
    exact Sat.pure ⟨rfl, rfl⟩
  · -- records
    rename_i n vs
    obtain ⟨fields, hd, hty⟩ := ht
    simp only [World.lower]
    refine Sat.someBind (hg.recordFields hd) ?_
    refine Sat.bind ((lowerAll_sat hl s fields vs h hty).imp ?_)
    rintro ps h1 ⟨own, fr, tys, tk⟩
    have hf : ps.flatten.length = 1 → ∃ p rest, ps = p :: rest ∧ p ≠ [] := by
      intro h1
      have hlen : (ps.map (·.map FfiVal.ty)).flatten.length = 1 := by
        rw [← List.map_flatten, List.length_map, h1]
      obtain ⟨p, rest, e, hp⟩ := hfirst n fields hd _ tys hlen
      cases ps with
      | nil => exact nomatch e
      | cons q qs =>
        refine ⟨q, qs, rfl, ?_⟩
        rintro rfl
        cases e
        exact hp rfl
    obtain ⟨ffi, e1, e2, e3⟩ := C71_record_round_trip_partial FfiVal.ty _ _ hg.ffi hg.names n fields hd ps tys hf
    refine Sat.pure ⟨own, fr, by rw [e1, e2], ?_⟩
    intro h2 ag s'
    simp only [World.lift]
    refine Sat.someBind (hg.recordFields hd) (Sat.someBind tys (Sat.someBind e3 ?_))
    refine Sat.bind ((tk h2 ag s').imp ?_)
    rintro v' h3 ⟨rfl, rfl⟩
    exact Sat.pure ⟨rfl, rfl⟩
  · -- enums
    rename_i n i vs
    obtain ⟨hi, variants, fields, hd, hv, hty⟩ := ht
    have hmem := List.mem_of_getElem? hv
    obtain ⟨ffi, per, alloc, e1, e2, e3, _⟩ := C71_variant_fits _ _ hg.ffi hg.names n variants hd fields hmem
    simp only [World.lower]
    refine Sat.someBind (hg.enumVariants hd) (Sat.someBind hv (Sat.someBind e1 (Sat.someBind e2 (Sat.someBind e3 ?_))))
    refine Sat.bind ((lowerAll_sat hl s fields vs h hty).imp ?_)
    rintro ps h1 ⟨own, fr, tys, tk⟩
    have tys' := tys
    rw [e2] at tys'
    cases tys'
    obtain ⟨ffi', alloc', values, g1, g2, g3, g4, g5, g6⟩ := C71_variant_round_trip FfiVal.ty FfiVal.dflt dflt_ty _ _
      hg.ffi hg.names n variants hd fields hmem (.num .int32 (castTo .i32 i)) rfl ps tys
    rw [e1] at g1
    cases g1
    rw [e3] at g2
    cases g2
    refine Sat.some! g3 ⟨own, fr, by rw [e1, g4], ?_⟩
    have hcast := castTo_i32_small hi
    rw [hcast] at g5
    cases values with
    | nil => exact nomatch g5
    | cons d rest =>
      simp only [List.getElem?_cons_zero, Option.some.injEq] at g5
      subst g5
      intro h2 ag s'
      simp only [World.lift]
      refine Sat.someBind (hg.enumVariants hd) ?_
      rw [if_neg (by omega)]
      simp only [Int.toNat_natCast]
      refine Sat.someBind hv (Sat.someBind e1 (Sat.someBind e2 (Sat.someBind e3 (Sat.someBind g6 ?_))))
      refine Sat.bind ((tk h2 ag s').imp ?_)
      rintro v' h3 ⟨rfl, rfl⟩
      exact Sat.pure ⟨rfl, rfl⟩
  · -- custom types
    rename_i n t
    obtain ⟨hd, hty⟩ := ht
    refine (hl s t v h hty).imp ?_
    rintro fs h1 ⟨own, fr, ty, tk⟩
    exact ⟨own, fr, by rw [hg.ffiCustom hd, ty], tk⟩
  · exact ht.elim

/-- Values arrive, however deep. -/
theorem passes {w : World} (hg : w.Good) (hfirst : w.FirstFields) : ∀ f, w.Writes f ∧ w.Lowers f
  | 0 => ⟨fun _ _ _ _ _ _ _ _ _ ht => ht.elim, fun _ _ _ _ ht => ht.elim⟩
  | f + 1 => by
    obtain ⟨h1, h2⟩ := passes hg hfirst f
    exact ⟨writes_succ hg h1 h2, lowers_succ hg hfirst h1 h2⟩

end Verif.Jni
