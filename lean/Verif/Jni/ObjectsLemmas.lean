import Verif.Jni.Objects
/-
What holds in all states of `Jni/Objects.lean`: every strong count is the number of references.
-/
namespace Verif.JniObjects

/-! ### References and counts -/

/-- Number of counted references to `x`. -/
def refs (x : Nat) (l : List Ref) : Nat := l.countP fun r => r.x = x

/-- What an allocation contains. -/
def W.body (w : W) (a : Nat) : Option Body := (w.heap a).map (·.1)

/-- How many references there should be. -/
def W.strong (w : W) (x : Nat) : Nat :=
  if x % 2 = 1 then (if (w.map x).isSome then 1 else 0)
  else match w.heap x with
    | some (_, c) => c
    | none => 0

/-- The references held by the allocation at `a`. -/
def W.kids (w : W) (a : Nat) : List Ref := w.own.filter fun r => r.place = .inner a

/-- The references held by Kotlin object `j`. -/
def W.held (w : W) (j : Nat) : List Ref := w.own.filter fun r => r.place = .kotlin j

/-- `x` is the address of an object or of a stand-in for a Kotlin object. -/
def Plain (w : W) (x : Nat) : Prop := (∃ n, w.body x = some (.obj n)) ∨ ∃ fh, w.body x = some (.wrapper fh)

/-- `x` is what Kotlin has as a handle of a Rust object. -/
def Handle (k : Kind) (w : W) (x : Nat) : Prop :=
  k ≠ .callback ∧ ((k = .struct ∧ ∃ n, w.body x = some (.obj n)) ∨ (k ≠ .struct ∧ ∃ b, w.body x = some (.double b)))

/-- What a reference can refer to, by the place it is held. -/
def Shape (k : Kind) (w : W) (r : Ref) : Prop :=
  match r.place with
  | .rust => Plain w r.x
  | .toKotlin => Handle k w r.x
  | .kotlin _ => Handle k w r.x
  | .toRust => Handle k w r.x ∨ (r.x % 2 = 1 ∧ (k = .foreign ∨ k = .callback))
  | .inner a => (w.body a = some (.double r.x) ∧ Plain w r.x) ∨ (w.body a = some (.wrapper r.x) ∧ r.x % 2 = 1 ∧ (k = .foreign ∨ k = .callback))

/-- The holder of a reference knows what it refers to. -/
structure Content (w : W) (r : Ref) : Prop where
  odd : r.x % 2 = 1 → ∃ f, w.map r.x = some f ∧ r.who = .kotlin f
  obj : ∀ n, w.body r.x = some (.obj n) → r.who = .rust n
  double : ∀ b, w.body r.x = some (.double b) → ⟨.inner r.x, b, r.who⟩ ∈ w.own
  wrapper : ∀ b, w.body r.x = some (.wrapper b) → ⟨.inner r.x, b, r.who⟩ ∈ w.own

/-- The invariant of memory; `l` are references that nobody holds any more but that are still counted. -/
structure Inv (k : Kind) (l : List Nat) (w : W) : Prop where
  bad : w.bad = false
  count : ∀ x, refs x w.own + l.count x = w.strong x
  pos : ∀ x b c, w.heap x = some (b, c) → 0 < c
  even : ∀ x b, w.body x = some b → x % 2 = 0 ∧ x ≠ 0
  mapOdd : ∀ x f, w.map x = some f → x % 2 = 1 ∧ x < w.next
  nextOdd : w.next % 2 = 1
  shape : ∀ r ∈ w.own, Shape k w r
  content : ∀ r ∈ w.own, Content w r
  kidsD : ∀ a b, w.body a = some (.double b) → ∃ t, w.kids a = [⟨.inner a, b, t⟩]
  kidsW : ∀ a b, w.body a = some (.wrapper b) → ∃ t, w.kids a = [⟨.inner a, b, t⟩]
  calls : ∀ t u, Ev.call t u ∈ w.log → u = t

/-- The references an allocation holds. -/
def Body.kid : Body → List Nat
  | .obj _ => []
  | .wrapper x => [x]
  | .double x => [x]

theorem strong_congr {w w' : W} {x : Nat} (h : w'.heap x = w.heap x) (hm : w'.map x = w.map x) :
    w'.strong x = w.strong x := by
  unfold W.strong; rw [h, hm]

theorem refs_append (x : Nat) (l m : List Ref) : refs x (l ++ m) = refs x l + refs x m := by
  simp [refs, List.countP_append]

theorem refs_nil (x : Nat) : refs x [] = 0 := rfl

theorem refs_cons (x : Nat) (r : Ref) (l : List Ref) : refs x (r :: l) = refs x l + if r.x = x then 1 else 0 := by
  simp only [refs, List.countP_cons, decide_eq_true_eq]

theorem refs_erase {r : Ref} {l : List Ref} (h : r ∈ l) (x : Nat) :
    refs x l = refs x (l.erase r) + if r.x = x then 1 else 0 := by
  have hp := List.perm_cons_erase h
  rw [← refs_cons, refs, refs, hp.countP_eq]

theorem refs_pos {r : Ref} {l : List Ref} (h : r ∈ l) : 0 < refs r.x l :=
  List.countP_pos_iff.2 ⟨r, h, by simp⟩

theorem refs_ex {x : Nat} {l : List Ref} (h : 0 < refs x l) : ∃ r ∈ l, r.x = x := by
  obtain ⟨r, h1, h2⟩ := List.countP_pos_iff.1 h
  exact ⟨r, h1, by simpa using h2⟩

theorem refs_filter (x : Nat) (p : Ref → Bool) (l : List Ref) :
    refs x l = refs x (l.filter p) + refs x (l.filter fun r => !p r) :=
  List.countP_eq_countP_filter_add ..

theorem body_some {w : W} {a : Nat} {b : Body} : w.body a = some b ↔ ∃ c, w.heap a = some (b, c) := by
  unfold W.body
  cases w.heap a with
  | none => simp
  | some p =>
    obtain ⟨b', c⟩ := p
    constructor
    · intro h; simp only [Option.map_some, Option.some.injEq] at h; exact ⟨c, by rw [h]⟩
    · rintro ⟨c', h⟩; simp only [Option.some.injEq, Prod.mk.injEq] at h; simp [h.1]

theorem body_none {w : W} {a : Nat} : w.body a = none ↔ w.heap a = none := by
  unfold W.body; simp

namespace Inv
variable {k : Kind} {l : List Nat} {w : W}

theorem noRef (j : Inv k l w) {x : Nat} (h : w.strong x = 0) : ∀ r ∈ w.own, r.x ≠ x := by
  intro r hr e
  have := refs_pos hr
  have := j.count x
  rw [e] at *
  omega

theorem strong_even (j : Inv k l w) {a : Nat} {b : Body} {c : Nat} (h : w.heap a = some (b, c)) :
    w.strong a = c := by
  have := (j.even a b (body_some.2 ⟨c, h⟩)).1
  simp only [W.strong, this, h]
  rfl

theorem heap_of_strong (_ : Inv k l w) {a : Nat} (he : a % 2 = 0) (h : 0 < w.strong a) :
    ∃ b c, w.heap a = some (b, c) := by
  unfold W.strong at h
  rw [if_neg (by omega)] at h
  cases hh : w.heap a with
  | none => rw [hh] at h; cases h
  | some p => exact ⟨p.1, p.2, rfl⟩

/-- References that are not held and those held can be exchanged. -/
theorem perm (j : Inv k l w) {m : List Nat} (h : ∀ x, l.count x = m.count x) : Inv k m w :=
  { j with count := fun x => by rw [← h x]; exact j.count x }

end Inv

/-- Nothing but counts changed. -/
theorem Inv.recount {k : Kind} {l m : List Nat} {w : W} (j : Inv k l w) {a c d : Nat} {b : Body}
    (h : w.heap a = some (b, c)) (hd : 0 < d) (hc : ∀ x, m.count x + (if x = a then c else 0) = l.count x + if x = a then d else 0) :
    Inv k m (w.setHeap a (some (b, d))) := by
  have hb : ∀ x, (w.setHeap a (some (b, d))).body x = w.body x := by
    intro x
    unfold W.body W.setHeap
    dsimp only
    split
    · rename_i e; rw [e, h]; rfl
    · rfl
  have hp : ∀ x, Plain (w.setHeap a (some (b, d))) x ↔ Plain w x := fun x => by unfold Plain; rw [hb]
  have hh : ∀ x, Handle k (w.setHeap a (some (b, d))) x ↔ Handle k w x := fun x => by unfold Handle; rw [hb]
  refine ⟨j.bad, ?_, ?_, ?_, j.mapOdd, j.nextOdd, ?_, ?_, ?_, ?_, j.calls⟩
  · intro x
    have h1 := j.count x
    have h2 := hc x
    have h3 : (w.setHeap a (some (b, d))).strong x + (if x = a then c else 0) = w.strong x + if x = a then d else 0 := by
      by_cases e : x = a
      · subst e
        rw [j.strong_even h]
        have := (j.even x b (body_some.2 ⟨c, h⟩)).1
        simp only [W.strong, W.setHeap, this, if_true]
        simp; omega
      · simp only [e, if_false, Nat.add_zero]; exact strong_congr (by simp [W.setHeap, e]) rfl
    show refs x w.own + m.count x = _
    omega
  · intro x b' c' hx
    simp only [W.setHeap] at hx
    split at hx
    · cases hx; exact hd
    · exact j.pos x b' c' hx
  · intro x b' hx; rw [hb] at hx; exact j.even x b' hx
  · intro r hr
    have := j.shape r hr
    unfold Shape at this ⊢
    simp only [hp, hh, hb]
    exact this
  · intro r hr
    have := j.content r hr
    exact ⟨this.odd, fun n hn => this.obj n (hb _ ▸ hn), fun n hn => this.double n (hb _ ▸ hn), fun n hn => this.wrapper n (hb _ ▸ hn)⟩
  · intro x y hx; rw [hb] at hx; exact j.kidsD x y hx
  · intro x y hx; rw [hb] at hx; exact j.kidsW x y hx

/-- The last reference to `a` is gone: it is not allocated any more and what it held is owed. -/
theorem Inv.unhook {k : Kind} {l : List Nat} {w : W} {a : Nat} (j : Inv k (a :: l) w) {b : Body}
    (h : w.heap a = some (b, 1)) :
    Inv k (b.kid ++ l)
      ((w.setHeap a none).forget a) := by
  have ha := j.even a b (body_some.2 ⟨1, h⟩)
  have h0 := j.count a
  rw [j.strong_even h, List.count_cons_self] at h0
  have hno : ∀ r ∈ w.own, r.x ≠ a := fun r hr e => by
    have := refs_pos hr; rw [e] at this; omega
  have hb : ∀ x, ((w.setHeap a none).forget a).body x = if x = a then none else w.body x := by
    intro x; unfold W.body W.setHeap W.forget; dsimp only; split <;> rfl
  have hb' : ∀ x y, w.body x = some y → x ≠ a → ((w.setHeap a none).forget a).body x = some y := by
    intro x y hx hn; rw [hb, if_neg hn]; exact hx
  have hb2 : ∀ x y, ((w.setHeap a none).forget a).body x = some y → w.body x = some y ∧ x ≠ a := by
    intro x y hx
    rw [hb] at hx
    split at hx
    · cases hx
    · rename_i hn; exact ⟨hx, hn⟩
  have hmem : ∀ r, r ∈ ((w.setHeap a none).forget a).own ↔ r ∈ w.own ∧ r.place ≠ .inner a := by
    intro r; simp [W.forget, W.setHeap]
  have hkid : ∀ x, refs x (w.kids a) = b.kid.count x := by
    intro x
    cases b with
    | obj n =>
      have : w.kids a = [] := by
        rw [W.kids, List.filter_eq_nil_iff]
        intro r hr hp
        have hp : r.place = .inner a := by simpa using hp
        have hs := j.shape r hr
        unfold Shape at hs
        rw [hp] at hs
        have hbo : w.body a = some (.obj n) := body_some.2 ⟨1, h⟩
        rcases hs with ⟨e, _⟩ | ⟨e, _⟩ <;> rw [hbo] at e <;> cases e
      rw [this]; rfl
    | wrapper y =>
      obtain ⟨t, e⟩ := j.kidsW a y (body_some.2 ⟨1, h⟩)
      rw [e]; simp [refs_cons, refs_nil, List.count_cons, Body.kid]
    | double y =>
      obtain ⟨t, e⟩ := j.kidsD a y (body_some.2 ⟨1, h⟩)
      rw [e]; simp [refs_cons, refs_nil, List.count_cons, Body.kid]
  have hpl : ∀ x, Plain w x → x ≠ a → Plain ((w.setHeap a none).forget a) x := by
    rintro x (⟨n, e⟩ | ⟨n, e⟩) hn
    · exact .inl ⟨n, hb' _ _ e hn⟩
    · exact .inr ⟨n, hb' _ _ e hn⟩
  have hha : ∀ x, Handle k w x → x ≠ a → Handle k ((w.setHeap a none).forget a) x := by
    rintro x ⟨hk, ⟨e1, n, e⟩ | ⟨e1, n, e⟩⟩ hn
    · exact ⟨hk, .inl ⟨e1, n, hb' _ _ e hn⟩⟩
    · exact ⟨hk, .inr ⟨e1, n, hb' _ _ e hn⟩⟩
  have hks : ∀ x, x ≠ a → ((w.setHeap a none).forget a).kids x = w.kids x := by
    intro x hn
    show (w.own.filter _).filter _ = w.own.filter _
    rw [List.filter_filter]
    apply List.filter_congr
    intro r _
    by_cases e : r.place = .inner x
    · simp [e, hn]
    · simp [e]
  refine ⟨j.bad, ?_, ?_, ?_, j.mapOdd, j.nextOdd, ?_, ?_, ?_, ?_, j.calls⟩
  · intro x
    have h1 := j.count x
    have h2 := refs_filter x (fun r => r.place = .inner a) w.own
    have h3 := hkid x
    have h4 : ((w.setHeap a none).forget a).own = w.own.filter fun r => !decide (r.place = .inner a) := by
      show w.own.filter _ = _
      apply List.filter_congr; intro r _; simp
    rw [h4, List.count_append, ← h3]
    have h5 : w.kids a = w.own.filter fun r => decide (r.place = .inner a) := rfl
    rw [h5]
    have h6 : ((w.setHeap a none).forget a).strong x + (if x = a then 1 else 0) = w.strong x := by
      by_cases e : x = a
      · subst e
        rw [j.strong_even h]
        simp only [W.strong, W.setHeap, W.forget, ha.1, if_true]
        simp
      · simp only [e, if_false, Nat.add_zero]; exact strong_congr (by simp [W.setHeap, W.forget, e]) rfl
    rw [List.count_cons] at h1
    have h7 : (a == x) = decide (x = a) := by
      by_cases e : x = a
      · subst e; simp
      · simp [e]; exact fun e' => e e'.symm
    rw [h7] at h1
    simp only [decide_eq_true_eq] at h1
    omega
  · intro x b' c' hx
    simp only [W.setHeap, W.forget] at hx
    split at hx
    · cases hx
    · exact j.pos x b' c' hx
  · intro x b' hx; exact j.even x b' (hb2 _ _ hx).1
  · intro r hr
    obtain ⟨hr, hi⟩ := (hmem r).1 hr
    have hs := j.shape r hr
    have hx := hno r hr
    unfold Shape at hs ⊢
    cases hpl' : r.place with
    | rust => rw [hpl'] at hs; exact hpl _ hs hx
    | toKotlin => rw [hpl'] at hs; exact hha _ hs hx
    | kotlin i => rw [hpl'] at hs; exact hha _ hs hx
    | toRust => rw [hpl'] at hs; exact hs.imp (fun h => hha _ h hx) id
    | inner y =>
      rw [hpl'] at hs
      have hy : y ≠ a := fun e => hi (by rw [hpl', e])
      rcases hs with ⟨e1, e2⟩ | ⟨e1, e2⟩
      · exact .inl ⟨hb' _ _ e1 hy, hpl _ e2 hx⟩
      · exact .inr ⟨hb' _ _ e1 hy, e2⟩
  · intro r hr
    obtain ⟨hr, hi⟩ := (hmem r).1 hr
    have hs := j.content r hr
    have hx := hno r hr
    have hin : ∀ t y, (⟨.inner r.x, y, t⟩ : Ref) ∈ w.own → (⟨.inner r.x, y, t⟩ : Ref) ∈ ((w.setHeap a none).forget a).own :=
      fun t y hm => (hmem _).2 ⟨hm, by simpa using hx⟩
    exact ⟨hs.odd, fun n hn => hs.obj n (hb2 _ _ hn).1, fun n hn => hin _ _ (hs.double n (hb2 _ _ hn).1),
      fun n hn => hin _ _ (hs.wrapper n (hb2 _ _ hn).1)⟩
  · intro x y hx
    obtain ⟨hx, hn⟩ := hb2 _ _ hx
    rw [hks x hn]; exact j.kidsD x y hx
  · intro x y hx
    obtain ⟨hx, hn⟩ := hb2 _ _ hx
    rw [hks x hn]; exact j.kidsW x y hx

/-- A handle of Kotlin that is owed is removed from the map. -/
theorem Inv.unmap {k : Kind} {l : List Nat} {w : W} {h f : Nat} (j : Inv k (h :: l) w)
    (hf : w.map h = some f) : Inv k l (w.setMap h none) := by
  have ho := (j.mapOdd h f hf).1
  have h0 := j.count h
  rw [List.count_cons_self] at h0
  have hs : w.strong h = 1 := by simp [W.strong, ho, hf]
  have hno : ∀ r ∈ w.own, r.x ≠ h := fun r hr e => by
    have := refs_pos hr; rw [e] at this; omega
  have hm : ∀ x, x ≠ h → (w.setMap h none).map x = w.map x := by
    intro x hx; simp [W.setMap, hx]
  refine ⟨j.bad, ?_, j.pos, j.even, ?_, j.nextOdd, j.shape, ?_, j.kidsD, j.kidsW, j.calls⟩
  · intro x
    have h1 := j.count x
    have h6 : (w.setMap h none).strong x + (if h = x then 1 else 0) = w.strong x := by
      by_cases e : h = x
      · subst e; rw [hs]; simp [W.strong, W.setMap, ho]
      · have e' : x ≠ h := fun e' => e e'.symm
        simp only [e, if_false, Nat.add_zero]; exact strong_congr rfl (by simp [W.setMap, e'])
    rw [List.count_cons] at h1
    simp only [beq_iff_eq] at h1
    show refs x w.own + _ = _
    omega
  · intro x g hg
    simp only [W.setMap] at hg
    split at hg
    · cases hg
    · exact j.mapOdd x g hg
  · intro r hr
    have hc := j.content r hr
    exact ⟨fun he => by rw [hm _ (hno r hr)]; exact hc.odd he, hc.obj, hc.double, hc.wrapper⟩

theorem Inv.addLog {k : Kind} {l : List Nat} {w : W} (j : Inv k l w) {e : Ev} (he : ∀ t u, e = .call t u → u = t) :
    Inv k l (w.add e) :=
  { j with
    calls := by
      intro t u h
      simp only [W.add, List.mem_append, List.mem_singleton] at h
      rcases h with h | h
      · exact j.calls t u h
      · exact he t u h.symm
    shape := j.shape
    content := fun r hr => have := j.content r hr; ⟨this.odd, this.obj, this.double, this.wrapper⟩ }

theorem Inv.freeKotlin {k : Kind} {l : List Nat} {w : W} {h : Nat} (j : Inv k (h :: l) w) (ho : h % 2 = 1) :
    Inv k l (w.freeKotlin h) := by
  have h0 := j.count h
  rw [List.count_cons_self] at h0
  unfold W.freeKotlin
  cases hf : w.map h with
  | none => simp [W.strong, ho, hf] at h0
  | some f => exact j.unmap hf

/-- Dropping a reference that is owed. -/
theorem Inv.decrWith {k : Kind} {l : List Nat} {w : W} {a : Nat} {inner : W → Nat → W} (j : Inv k (a :: l) w)
    (he : a % 2 = 0)
    (hi : ∀ b w', w.body a = some (.double b) → Inv k (b :: l) w' → b % 2 = 0 → (∀ c, w'.body b ≠ some (.double c)) → Inv k l (inner w' b)) :
    Inv k l (W.decrWith inner w a) := by
  have h0 := j.count a
  rw [List.count_cons_self] at h0
  obtain ⟨b, c, hh⟩ := j.heap_of_strong he (by omega)
  unfold W.decrWith
  rw [hh]
  dsimp only
  split
  · rename_i hc
    subst hc
    have ju := j.unhook hh
    cases b with
    | obj n => exact ju.addLog (fun _ _ e => by cases e)
    | wrapper fh =>
      refine ju.freeKotlin ?_
      obtain ⟨t, ht⟩ := j.kidsW a fh (body_some.2 ⟨1, hh⟩)
      have hm : (⟨.inner a, fh, t⟩ : Ref) ∈ w.kids a := by rw [ht]; simp
      have hs := j.shape _ (List.mem_filter.1 hm).1
      unfold Shape at hs
      dsimp only at hs
      have hbo := body_some.2 ⟨1, hh⟩
      rcases hs with ⟨e, _⟩ | ⟨_, e⟩
      · rw [hbo] at e; cases e
      · exact e.1
    | double b =>
      have hbo := body_some.2 ⟨1, hh⟩
      obtain ⟨t, ht⟩ := j.kidsD a b hbo
      have hm : (⟨.inner a, b, t⟩ : Ref) ∈ w.kids a := by rw [ht]; simp
      have hs := j.shape _ (List.mem_filter.1 hm).1
      unfold Shape at hs
      dsimp only at hs
      have hp : Plain w b := by
        rcases hs with ⟨_, e⟩ | ⟨e, _⟩
        · exact e
        · rw [hbo] at e; cases e
      refine hi b _ hbo ju ?_ ?_
      · rcases hp with ⟨n, e⟩ | ⟨n, e⟩ <;> exact (j.even _ _ e).1
      · intro c hc
        have : w.body b = some (.double c) := by
          unfold W.body W.setHeap W.forget at hc
          dsimp only at hc
          split at hc
          · cases hc
          · exact hc
        rcases hp with ⟨n, e⟩ | ⟨n, e⟩ <;> rw [this] at e <;> cases e
  · rename_i hc
    have := j.pos _ _ _ hh
    refine j.recount hh (by omega) ?_
    intro x
    rw [List.count_cons]
    by_cases e : x = a
    · subst e; simp; omega
    · have e' : ¬ a = x := fun e' => e e'.symm
      simp [e, e']

theorem Inv.decr {k : Kind} {l : List Nat} {w : W} {a : Nat} (j : Inv k (a :: l) w) (he : a % 2 = 0) :
    Inv k l (w.decr a) := by
  refine j.decrWith he ?_
  intro b w' _ j' hb hd
  refine j'.decrWith hb ?_
  intro c w'' hc
  exact absurd hc (hd c)

/-- One more reference is counted, owed to nobody yet. -/
theorem Inv.incr {k : Kind} {l : List Nat} {w : W} {a : Nat} (j : Inv k l w) {b : Body} (h : w.body a = some b) :
    Inv k (a :: l) (w.incr a) ∧ (w.incr a).own = w.own ∧ ∀ x, (w.incr a).body x = w.body x := by
  obtain ⟨c, hc⟩ := body_some.1 h
  have e : w.incr a = w.setHeap a (some (b, c + 1)) := by unfold W.incr; rw [hc]
  rw [e]
  refine ⟨j.recount hc (by omega) ?_, rfl, ?_⟩
  · intro x
    rw [List.count_cons]
    by_cases e : x = a
    · subst e; simp; omega
    · have e' : ¬ a = x := fun e' => e e'.symm
      simp [e, e']
  · intro x
    unfold W.body W.setHeap
    dsimp only
    split
    · rename_i e; rw [e, hc]; rfl
    · rfl

/-- A reference that is not held by memory is given up: it is owed. -/
theorem Inv.give {k : Kind} {l : List Nat} {w : W} {r : Ref} (j : Inv k l w) (hr : r ∈ w.own)
    (hp : ∀ a, r.place ≠ .inner a) : Inv k (r.x :: l) { w with own := w.own.erase r } := by
  have hin : ∀ a x t, (⟨.inner a, x, t⟩ : Ref) ∈ w.own → (⟨.inner a, x, t⟩ : Ref) ∈ w.own.erase r :=
    fun a x t hm => (List.mem_erase_of_ne (fun e => hp a (by rw [← e]))).2 hm
  have hk : ∀ a, ({ w with own := w.own.erase r } : W).kids a = w.kids a := by
    intro a
    show (w.own.erase r).filter _ = _
    rw [← List.erase_filter]
    apply List.erase_of_not_mem
    intro hm
    have := (List.mem_filter.1 hm).2
    exact hp a (by simpa using this)
  refine ⟨j.bad, ?_, j.pos, j.even, j.mapOdd, j.nextOdd, ?_, ?_, ?_, ?_, j.calls⟩
  · intro x
    have h1 := j.count x
    have h2 := refs_erase hr x
    rw [List.count_cons]
    simp only [beq_iff_eq]
    show refs x (w.own.erase r) + _ = w.strong x
    omega
  · intro s hs; exact j.shape s (List.mem_of_mem_erase hs)
  · intro s hs
    have hc := j.content s (List.mem_of_mem_erase hs)
    exact ⟨hc.odd, hc.obj, fun b hb => hin _ _ _ (hc.double b hb), fun b hb => hin _ _ _ (hc.wrapper b hb)⟩
  · intro a b hb; rw [hk]; exact j.kidsD a b hb
  · intro a b hb; rw [hk]; exact j.kidsW a b hb

/-- An owed reference is taken by somebody who is not memory. -/
theorem Inv.take {k : Kind} {l : List Nat} {w : W} {r : Ref} (j : Inv k (r.x :: l) w)
    (hp : ∀ a, r.place ≠ .inner a) (hs : Shape k w r) (hc : Content w r) :
    Inv k l { w with own := w.own ++ [r] } := by
  have hk : ∀ a, ({ w with own := w.own ++ [r] } : W).kids a = w.kids a := by
    intro a
    show (w.own ++ [r]).filter _ = _
    rw [List.filter_append, W.kids]
    simp [hp a]
  have hcon : ∀ s, Content w s → Content { w with own := w.own ++ [r] } s := fun s hc =>
    ⟨hc.odd, hc.obj, fun b hb => List.mem_append_left _ (hc.double b hb), fun b hb => List.mem_append_left _ (hc.wrapper b hb)⟩
  refine ⟨j.bad, ?_, j.pos, j.even, j.mapOdd, j.nextOdd, ?_, ?_, ?_, ?_, j.calls⟩
  · intro x
    have h1 := j.count x
    rw [List.count_cons] at h1
    simp only [beq_iff_eq] at h1
    show refs x (w.own ++ [r]) + _ = w.strong x
    rw [refs_append, refs_cons, refs_nil]
    omega
  · intro s hm
    rcases List.mem_append.1 hm with hm | hm
    · exact j.shape s hm
    · rw [List.mem_singleton] at hm; subst hm; exact hs
  · intro s hm
    rcases List.mem_append.1 hm with hm | hm
    · exact hcon s (j.content s hm)
    · rw [List.mem_singleton] at hm; subst hm; exact hcon s hc
  · intro a b hb; rw [hk]; exact j.kidsD a b hb
  · intro a b hb; rw [hk]; exact j.kidsW a b hb

/-- A new allocation, which takes an owed reference if it holds one. -/
theorem Inv.alloc {k : Kind} {l : List Nat} {w : W} {d : Nat} {b : Body} {kid : List Ref}
    (j : Inv k (b.kid ++ l) w) (hf : w.FreeAddr d)
    (hk : match b with
      | .obj _ => kid = []
      | .wrapper x => ∃ t, kid = [⟨.inner d, x, t⟩] ∧ (x % 2 = 1 ∧ (k = .foreign ∨ k = .callback)) ∧ Content w ⟨.inner d, x, t⟩
      | .double x => ∃ t, kid = [⟨.inner d, x, t⟩] ∧ Plain w x ∧ Content w ⟨.inner d, x, t⟩) :
    Inv k (d :: l) { w.setHeap d (some (b, 1)) with own := w.own ++ kid } := by
  obtain ⟨he, hz, hn⟩ := hf
  have hbn : w.body d = none := body_none.2 hn
  have hs0 : w.strong d = 0 := by simp [W.strong, he, hn]
  have hno := j.noRef hs0
  have hb : ∀ x, ({ w.setHeap d (some (b, 1)) with own := w.own ++ kid } : W).body x = if x = d then some b else w.body x := by
    intro x; unfold W.body W.setHeap; dsimp only; split <;> rfl
  have hb' : ∀ x y, w.body x = some y → ({ w.setHeap d (some (b, 1)) with own := w.own ++ kid } : W).body x = some y := by
    intro x y hx
    rw [hb, if_neg]; exact hx
    intro e; rw [e, hbn] at hx; cases hx
  have hpl : ∀ x, Plain w x → Plain ({ w.setHeap d (some (b, 1)) with own := w.own ++ kid } : W) x := by
    rintro x (⟨n, e⟩ | ⟨n, e⟩)
    · exact .inl ⟨n, hb' _ _ e⟩
    · exact .inr ⟨n, hb' _ _ e⟩
  have hha : ∀ x, Handle k w x → Handle k ({ w.setHeap d (some (b, 1)) with own := w.own ++ kid } : W) x := by
    rintro x ⟨hk, ⟨e1, n, e⟩ | ⟨e1, n, e⟩⟩
    · exact ⟨hk, .inl ⟨e1, n, hb' _ _ e⟩⟩
    · exact ⟨hk, .inr ⟨e1, n, hb' _ _ e⟩⟩
  have hcon : ∀ s : Ref, s.x ≠ d → Content w s → Content ({ w.setHeap d (some (b, 1)) with own := w.own ++ kid } : W) s := by
    intro s hs hc
    refine ⟨hc.odd, fun n h => hc.obj n ?_, fun n h => List.mem_append_left _ (hc.double n ?_), fun n h => List.mem_append_left _ (hc.wrapper n ?_)⟩ <;>
      · rw [hb, if_neg hs] at h; exact h
  have hkm : ∀ r ∈ kid, r.place = .inner d ∧ r.x ≠ d ∧ Content w r ∧
      ((b = .double r.x ∧ Plain w r.x) ∨ (b = .wrapper r.x ∧ (r.x % 2 = 1 ∧ (k = .foreign ∨ k = .callback)))) := by
    intro r hr
    cases b with
    | obj n => dsimp only at hk; rw [hk] at hr; cases hr
    | wrapper x =>
      obtain ⟨t, e, ho, hc⟩ := hk
      rw [e, List.mem_singleton] at hr
      subst hr
      exact ⟨rfl, by dsimp only; omega, hc, .inr ⟨rfl, ho⟩⟩
    | double x =>
      obtain ⟨t, e, hp, hc⟩ := hk
      rw [e, List.mem_singleton] at hr
      subst hr
      refine ⟨rfl, ?_, hc, .inl ⟨rfl, hp⟩⟩
      dsimp only
      rintro rfl
      rcases hp with ⟨n, e⟩ | ⟨n, e⟩ <;> rw [hbn] at e <;> cases e
  have hkids : ∀ a, a ≠ d → ({ w.setHeap d (some (b, 1)) with own := w.own ++ kid } : W).kids a = w.kids a := by
    intro a ha
    show (w.own ++ kid).filter _ = _
    rw [List.filter_append, W.kids]
    have : kid.filter (fun r => decide (r.place = .inner a)) = [] := by
      rw [List.filter_eq_nil_iff]
      intro r hr hp
      have := (hkm r hr).1
      simp [this] at hp
      exact ha hp.symm
    rw [this, List.append_nil]
  have hkd : ({ w.setHeap d (some (b, 1)) with own := w.own ++ kid } : W).kids d = kid := by
    show (w.own ++ kid).filter _ = _
    rw [List.filter_append]
    have h1 : w.own.filter (fun r => decide (r.place = .inner d)) = [] := by
      rw [List.filter_eq_nil_iff]
      intro r hr hp
      have hp : r.place = .inner d := by simpa using hp
      have hs := j.shape r hr
      unfold Shape at hs
      rw [hp] at hs
      rcases hs with ⟨e, _⟩ | ⟨e, _⟩ <;> rw [hbn] at e <;> cases e
    have h2 : kid.filter (fun r => decide (r.place = .inner d)) = kid := by
      rw [List.filter_eq_self]
      intro r hr
      simp [(hkm r hr).1]
    rw [h1, h2, List.nil_append]
  have hrk : ∀ x, refs x kid = b.kid.count x := by
    intro x
    cases b with
    | obj n => dsimp only at hk; rw [hk]; rfl
    | wrapper y => obtain ⟨t, e, _⟩ := hk; rw [e]; simp [refs_cons, refs_nil, List.count_cons, Body.kid]
    | double y => obtain ⟨t, e, _⟩ := hk; rw [e]; simp [refs_cons, refs_nil, List.count_cons, Body.kid]
  refine ⟨j.bad, ?_, ?_, ?_, j.mapOdd, j.nextOdd, ?_, ?_, ?_, ?_, j.calls⟩
  · intro x
    have h1 := j.count x
    rw [List.count_append, ← hrk] at h1
    have h6 : ({ w.setHeap d (some (b, 1)) with own := w.own ++ kid } : W).strong x = w.strong x + if d = x then 1 else 0 := by
      by_cases e : d = x
      · subst e; rw [hs0]; simp [W.strong, W.setHeap, he]
      · have e' : x ≠ d := fun e' => e e'.symm
        simp only [e, if_false, Nat.add_zero]; exact strong_congr (by simp [W.setHeap, e']) rfl
    rw [h6, List.count_cons]
    simp only [beq_iff_eq]
    show refs x (w.own ++ kid) + _ = _
    rw [refs_append]
    omega
  · intro x b' c' hx
    simp only [W.setHeap] at hx
    split at hx
    · cases hx; omega
    · exact j.pos x b' c' hx
  · intro x b' hx
    rw [hb] at hx
    split at hx
    · rename_i e; subst e; exact ⟨he, hz⟩
    · exact j.even x b' hx
  · intro r hr
    rcases List.mem_append.1 hr with hr | hr
    · have hs := j.shape r hr
      unfold Shape at hs ⊢
      cases hp : r.place with
      | rust => rw [hp] at hs; exact hpl _ hs
      | toKotlin => rw [hp] at hs; exact hha _ hs
      | kotlin i => rw [hp] at hs; exact hha _ hs
      | toRust => rw [hp] at hs; exact hs.imp (hha _) id
      | inner y =>
        rw [hp] at hs
        exact hs.imp (fun h => ⟨hb' _ _ h.1, hpl _ h.2⟩) (fun h => ⟨hb' _ _ h.1, h.2⟩)
    · obtain ⟨hp, _, _, hs⟩ := hkm r hr
      unfold Shape
      rw [hp]
      dsimp only
      rw [hb, if_pos rfl]
      exact hs.imp (fun h => ⟨by rw [h.1], hpl _ h.2⟩) (fun h => ⟨by rw [h.1], h.2⟩)
  · intro r hr
    rcases List.mem_append.1 hr with hr | hr
    · exact hcon r (hno r hr) (j.content r hr)
    · obtain ⟨_, hx, hc, _⟩ := hkm r hr
      exact hcon r hx hc
  · intro a x hx
    by_cases e : a = d
    · subst e
      rw [hb, if_pos rfl] at hx
      cases hx
      obtain ⟨t, e, _⟩ := hk
      exact ⟨t, by rw [hkd, e]⟩
    · rw [hb, if_neg e] at hx; rw [hkids a e]; exact j.kidsD a x hx
  · intro a x hx
    by_cases e : a = d
    · subst e
      rw [hb, if_pos rfl] at hx
      cases hx
      obtain ⟨t, e, _⟩ := hk
      exact ⟨t, by rw [hkd, e]⟩
    · rw [hb, if_neg e] at hx; rw [hkids a e]; exact j.kidsW a x hx

end Verif.JniObjects
