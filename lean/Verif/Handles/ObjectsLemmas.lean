import Verif.Handles.Objects
import Verif.Handles.HandleMapLemmas
/-
Invariants of object passing.
-/
namespace Verif.Objects
open Verif
open Verif.HandleMap (find del find_mem find_none mem_del nodup_del)

/-- How often a handle or address occurs. -/
def refs (a : Nat) (l : List (Nat × Who)) : Nat := l.countP fun p => p.1 == a

@[simp] theorem refs_nil (a : Nat) : refs a [] = 0 := rfl
@[simp] theorem refs_append (a : Nat) (l m : List (Nat × Who)) :
    refs a (l ++ m) = refs a l + refs a m := by simp [refs]
theorem refs_single (a b : Nat) (t : Who) : refs a [(b, t)] = if b = a then 1 else 0 := by
  simp [refs, List.countP_cons]

theorem refs_erase {a b : Nat} {t : Who} {l : List (Nat × Who)} (h : (b, t) ∈ l) :
    refs a (l.erase (b, t)) + (if b = a then 1 else 0) = refs a l := by
  have := (List.perm_cons_erase h).countP_eq (fun p => p.1 == a)
  rw [List.countP_cons] at this
  simp only [refs, beq_iff_eq] at *
  omega

theorem refs_pos {a : Nat} {t : Who} {l : List (Nat × Who)} (h : (a, t) ∈ l) : 0 < refs a l :=
  List.countP_pos_iff.2 ⟨_, h, by simp⟩

theorem exists_of_refs_pos {a : Nat} {l : List (Nat × Who)} (h : 0 < refs a l) :
    ∃ t, (a, t) ∈ l := by
  obtain ⟨⟨b, t⟩, h1, h2⟩ := List.countP_pos_iff.1 h
  simp only [beq_iff_eq] at h2
  exact ⟨t, h2 ▸ h1⟩

/-- How many allocations have a content. -/
def bodyCount (b : Body) (l : List (Nat × Body)) : Nat := l.countP fun p => p.2 == b

@[simp] theorem bodyCount_append (b : Body) (l m : List (Nat × Body)) :
    bodyCount b (l ++ m) = bodyCount b l + bodyCount b m := by simp [bodyCount]
theorem bodyCount_single (b c : Body) (a : Nat) :
    bodyCount b [(a, c)] = if c = b then 1 else 0 := by
  simp [bodyCount, List.countP_cons]

theorem bodyCount_pos {b : Body} {a : Nat} {l : List (Nat × Body)} (h : (a, b) ∈ l) :
    0 < bodyCount b l := List.countP_pos_iff.2 ⟨_, h, by simp⟩

theorem exists_of_bodyCount_pos {b : Body} {l : List (Nat × Body)} (h : 0 < bodyCount b l) :
    ∃ a, (a, b) ∈ l := by
  obtain ⟨⟨a, c⟩, h1, h2⟩ := List.countP_pos_iff.1 h
  simp only [beq_iff_eq] at h2
  exact ⟨a, h2 ▸ h1⟩

theorem unique {β : Type} {l : List (Nat × β)} (hk : (l.map (·.1)).Nodup) {a : Nat} {x y : β}
    (h1 : (a, x) ∈ l) (h2 : (a, y) ∈ l) : x = y := by
  induction l with
  | nil => cases h1
  | cons p m ih =>
    simp only [List.map_cons, List.nodup_cons] at hk
    rcases List.mem_cons.1 h1 with rfl | h1 <;> rcases List.mem_cons.1 h2 with h2 | h2
    · simp only [Prod.mk.injEq, true_and] at h2; exact h2.symm
    · exact absurd (List.mem_map.2 ⟨_, h2, rfl⟩) hk.1
    · exact absurd (List.mem_map.2 ⟨_, h1, by rw [← h2]⟩) hk.1
    · exact ih hk.2 h1 h2

theorem find_of_mem {β : Type} {l : List (Nat × β)} (hk : (l.map (·.1)).Nodup) {a : Nat} {x : β}
    (h : (a, x) ∈ l) : find l a = some x := by
  cases hf : find l a with
  | none => exact absurd h (find_none hf x)
  | some y => rw [unique hk (find_mem hf) h]

theorem countP_del {β : Type} {l : List (Nat × β)} (hk : (l.map (·.1)).Nodup) {a : Nat} {x : β}
    (h : (a, x) ∈ l) (p : Nat × β → Bool) :
    (del l a).countP p + (if p (a, x) then 1 else 0) = l.countP p := by
  induction l with
  | nil => cases h
  | cons q m ih =>
    simp only [List.map_cons, List.nodup_cons] at hk
    rcases List.mem_cons.1 h with rfl | h
    · have : del m a = m := by
        rw [del, List.filter_eq_self]
        intro r hr
        simp only [bne_iff_ne, ne_eq]
        exact fun he => hk.1 (he ▸ List.mem_map.2 ⟨r, hr, rfl⟩)
      have h2 : del ((a, x) :: m) a = m := by
        rw [← this]; simp [del]
      rw [h2, List.countP_cons]
    · have hne : q.1 ≠ a := fun he => hk.1 (List.mem_map.2 ⟨_, h, he.symm⟩)
      have h2 : del (q :: m) a = q :: del m a := by simp [del, hne]
      rw [h2, List.countP_cons, List.countP_cons]
      have := ih hk.2 h
      omega

theorem bodyCount_del {l : List (Nat × Body)} (hk : (l.map (·.1)).Nodup) {a : Nat} {x : Body}
    (h : (a, x) ∈ l) (b : Body) : bodyCount b (del l a) + (if x = b then 1 else 0) = bodyCount b l := by
  have := countP_del hk h (fun p => p.2 == b)
  simpa [bodyCount] using this

def keyCount (h : Nat) (l : List (Nat × Nat)) : Nat := l.countP fun p => p.1 == h

theorem keyCount_del {l : List (Nat × Nat)} (hk : (l.map (·.1)).Nodup) {a x : Nat}
    (h : (a, x) ∈ l) (b : Nat) : keyCount b (del l a) + (if a = b then 1 else 0) = keyCount b l := by
  have := countP_del hk h (fun p => p.1 == b)
  simpa [keyCount] using this

theorem keyCount_cons (b a x : Nat) (l : List (Nat × Nat)) :
    keyCount b ((a, x) :: l) = keyCount b l + if a = b then 1 else 0 := by
  simp [keyCount, List.countP_cons]

theorem keyCount_pos {l : List (Nat × Nat)} {a x : Nat} (h : (a, x) ∈ l) : 0 < keyCount a l :=
  List.countP_pos_iff.2 ⟨_, h, by simp⟩

theorem exists_of_keyCount_pos {l : List (Nat × Nat)} {a : Nat} (h : 0 < keyCount a l) :
    ∃ x, (a, x) ∈ l := by
  obtain ⟨⟨b, t⟩, h1, h2⟩ := List.countP_pos_iff.1 h
  simp only [beq_iff_eq] at h2
  exact ⟨t, h2 ▸ h1⟩

/-! ### The invariant -/

/-- What Rust code can hold for `t`. -/
def W.RustRef (k : Kind) (w : W) (a : Nat) (t : Who) : Prop :=
  (∃ n, (a, Body.obj n) ∈ w.bodies ∧ t = .rust n) ∨
  (k.hasForeign = true ∧ ∃ fh f, (a, Body.wrapper fh) ∈ w.bodies ∧ (fh, f) ∈ w.map ∧ t = .foreign f)

/-- A Rust handle for `t`. -/
def W.RustHandle (k : Kind) (w : W) (h : Nat) (t : Who) : Prop :=
  ∃ n, t = .rust n ∧
    ((k = .struct ∧ (h, Body.obj n) ∈ w.bodies) ∨
      (k ≠ .struct ∧ ∃ b, (h, Body.double b) ∈ w.bodies ∧ (b, Body.obj n) ∈ w.bodies))

/-- A foreign handle for `t`. -/
def W.ForeignHandle (k : Kind) (w : W) (h : Nat) (t : Who) : Prop :=
  k.hasForeign = true ∧ ∃ f, (h, f) ∈ w.map ∧ t = .foreign f

/-- Owners of an allocation. `tmp`: owners in the middle of a step. -/
def W.owners (w : W) (tmp : List Nat) (a : Nat) : Nat :=
  refs a w.rust + refs a w.toForeign + refs a w.toRust + refs a w.proxies +
    bodyCount (.double a) w.bodies + tmp.count a

def drops (n : Nat) (l : List Ev) : Nat := l.count (.dropped n)

@[simp] theorem drops_append (n : Nat) (l m : List Ev) : drops n (l ++ m) = drops n l + drops n m := by
  simp [drops]

theorem drops_single (n m : Nat) : drops n [.dropped m] = if m = n then 1 else 0 := by
  simp [drops, List.count_cons]

/-- `tmpH`: foreign handles owned in the middle of a step. -/
structure Inv (k : Kind) (i : Bool) (tmp tmpH : List Nat) (w : W) : Prop where
  keys : (w.bodies.map (·.1)).Nodup
  even : ∀ a b, (a, b) ∈ w.bodies → a % 2 = 0 ∧ a ≠ 0
  count : ∀ a b, (a, b) ∈ w.bodies → w.cnt a = w.owners tmp a ∧ 0 < w.cnt a
  tmpOk : ∀ a ∈ tmp, ∃ b, (a, b) ∈ w.bodies
  rustOk : ∀ a t, (a, t) ∈ w.rust → w.RustRef k a t
  toForeignOk : ∀ h t, (h, t) ∈ w.toForeign → w.RustHandle k h t ∨ w.ForeignHandle k h t
  toRustOk : ∀ h t, (h, t) ∈ w.toRust → w.RustHandle k h t ∨ w.ForeignHandle k h t
  proxyOk : ∀ h t, (h, t) ∈ w.proxies → w.RustHandle k h t
  doubleOk : ∀ d b, (d, Body.double b) ∈ w.bodies → k ≠ .struct ∧ ∃ n, (b, Body.obj n) ∈ w.bodies
  wrapperOk : ∀ a fh, (a, Body.wrapper fh) ∈ w.bodies → k.hasForeign = true ∧ fh % 2 = 1
  mapKeys : (w.map.map (·.1)).Nodup
  mapOdd : ∀ h f, (h, f) ∈ w.map → h % 2 = 1
  mapCount : ∀ h, h % 2 = 1 → keyCount h w.map =
    refs h w.toForeign + refs h w.toRust + bodyCount (.wrapper h) w.bodies + tmpH.count h
  objOld : ∀ n, n < w.nextRust → bodyCount (.obj n) w.bodies + drops n w.log = 1
  objNew : ∀ n, w.nextRust ≤ n → bodyCount (.obj n) w.bodies + drops n w.log = 0
  objImpl : ∀ a n, (a, Body.obj n) ∈ w.bodies → i = true
  made : ∀ n, Ev.made (.rust n) ∈ w.log ↔ n < w.nextRust
  calls : ∀ t u, Ev.call t u ∈ w.log ∨ Ev.back t u ∈ w.log → t = u
  bad : w.bad = false

theorem Inv.init (k : Kind) (i : Bool) : Inv k i [] [] {} where
  keys := by simp
  even := by simp
  count := by simp
  tmpOk := by simp
  rustOk := by simp
  toForeignOk := by simp
  toRustOk := by simp
  proxyOk := by simp
  doubleOk := by simp
  wrapperOk := by simp
  mapKeys := by simp
  mapOdd := by simp
  mapCount := by simp [keyCount, bodyCount]
  objOld := by simp
  objNew := by simp [bodyCount, drops]
  objImpl := by simp
  made := by simp
  calls := by simp
  bad := rfl

variable {k : Kind} {i : Bool} {tmp tmpH : List Nat} {w : W}

theorem Inv.find_body (j : Inv k i tmp tmpH w) {a : Nat} {b : Body} (h : (a, b) ∈ w.bodies) :
    find w.bodies a = some b := find_of_mem j.keys h

/-- Cloning an `Arc`. -/
theorem Inv.incr (j : Inv k i tmp tmpH w) {a : Nat} {b : Body} (h : (a, b) ∈ w.bodies) :
    Inv k i (a :: tmp) tmpH (w.incr a) := by
  have e : w.incr a = { w with cnt := fun x => if x = a then w.cnt a + 1 else w.cnt x } := by
    simp [W.incr, j.find_body h]
  rw [e]
  refine { j with count := ?_, tmpOk := ?_ }
  · intro x c hx
    have := j.count x c hx
    simp only [W.owners, List.count_cons, beq_iff_eq] at this ⊢
    by_cases hxa : x = a
    · subst hxa; simp; omega
    · have : ¬ a = x := fun h => hxa h.symm
      simp [hxa, this]; omega
  · intro x hx
    rcases List.mem_cons.1 hx with rfl | hx
    · exact ⟨b, h⟩
    · exact j.tmpOk x hx

/-- A new allocation. -/
theorem Inv.alloc_aux (j : Inv k i tmp tmpH w) {a : Nat} (ha : w.FreeAddr a) :
    (∀ b, (a, b) ∉ w.bodies) ∧ w.owners tmp a = 0 := by
  have hn : ∀ b, (a, b) ∉ w.bodies := find_none ha.2.2
  refine ⟨hn, ?_⟩
  have h1 : refs a w.rust = 0 := Nat.eq_zero_of_not_pos fun h => by
    obtain ⟨t, ht⟩ := exists_of_refs_pos h
    rcases j.rustOk a t ht with ⟨n, h, _⟩ | ⟨_, fh, f, h, _⟩ <;> exact hn _ h
  have hw : ∀ t, w.RustHandle k a t ∨ w.ForeignHandle k a t → False := by
    rintro t (⟨n, _, ⟨_, h⟩ | ⟨_, b, h, _⟩⟩ | ⟨_, f, h, _⟩)
    · exact hn _ h
    · exact hn _ h
    · have := j.mapOdd _ _ h; have := ha.1; omega
  have h2 : refs a w.toForeign = 0 := Nat.eq_zero_of_not_pos fun h => by
    obtain ⟨t, ht⟩ := exists_of_refs_pos h
    exact hw t (j.toForeignOk a t ht)
  have h3 : refs a w.toRust = 0 := Nat.eq_zero_of_not_pos fun h => by
    obtain ⟨t, ht⟩ := exists_of_refs_pos h
    exact hw t (j.toRustOk a t ht)
  have h4 : refs a w.proxies = 0 := Nat.eq_zero_of_not_pos fun h => by
    obtain ⟨t, ht⟩ := exists_of_refs_pos h
    exact hw t (.inl (j.proxyOk a t ht))
  have h5 : bodyCount (.double a) w.bodies = 0 := Nat.eq_zero_of_not_pos fun h => by
    obtain ⟨d, hd⟩ := exists_of_bodyCount_pos h
    obtain ⟨_, n, hb⟩ := j.doubleOk d a hd
    exact hn _ hb
  have h6 : tmp.count a = 0 := List.count_eq_zero.2 fun h => by
    obtain ⟨b, hb⟩ := j.tmpOk a h
    exact hn _ hb
  simp [W.owners, *]

theorem W.RustRef.mono {w w' : W} (hb : ∀ p ∈ w.bodies, p ∈ w'.bodies) (hm : ∀ p ∈ w.map, p ∈ w'.map)
    {a : Nat} {t : Who} (h : w.RustRef k a t) : w'.RustRef k a t := by
  rcases h with ⟨n, h, e⟩ | ⟨h, fh, f, h1, h2, e⟩
  · exact .inl ⟨n, hb _ h, e⟩
  · exact .inr ⟨h, fh, f, hb _ h1, hm _ h2, e⟩

theorem W.RustHandle.mono {w w' : W} (hb : ∀ p ∈ w.bodies, p ∈ w'.bodies)
    {a : Nat} {t : Who} (h : w.RustHandle k a t) : w'.RustHandle k a t := by
  obtain ⟨n, e, ⟨h1, h2⟩ | ⟨h1, b, h2, h3⟩⟩ := h
  · exact ⟨n, e, .inl ⟨h1, hb _ h2⟩⟩
  · exact ⟨n, e, .inr ⟨h1, b, hb _ h2, hb _ h3⟩⟩

theorem W.ForeignHandle.mono {w w' : W} (hm : ∀ p ∈ w.map, p ∈ w'.map)
    {a : Nat} {t : Who} (h : w.ForeignHandle k a t) : w'.ForeignHandle k a t := by
  obtain ⟨h, f, h1, e⟩ := h
  exact ⟨h, f, hm _ h1, e⟩


theorem Inv.alloc (j : Inv k i tmp tmpH w) {a : Nat} (ha : w.FreeAddr a) {b : Body}
    {tmp' tmpH' : List Nat}
    (hc : ∀ x, tmp.count x = tmp'.count x + if b = .double x then 1 else 0)
    (hcH : ∀ x, tmpH.count x = tmpH'.count x + if b = .wrapper x then 1 else 0)
    (ho : ∀ n, b ≠ .obj n)
    (hd : ∀ c, b = .double c → k ≠ .struct ∧ ∃ n, (c, Body.obj n) ∈ w.bodies)
    (hw : ∀ fh, b = .wrapper fh → k.hasForeign = true ∧ fh % 2 = 1) :
    Inv k i (a :: tmp') tmpH' (w.alloc a b) := by
  obtain ⟨hn, h0⟩ := j.alloc_aux ha
  have hsub : ∀ p ∈ w.bodies, p ∈ (w.alloc a b).bodies := fun p hp => List.mem_append_left _ hp
  have hmem : ∀ x c, (x, c) ∈ (w.alloc a b).bodies ↔ (x, c) ∈ w.bodies ∨ (x = a ∧ c = b) := by
    intro x c; simp [W.alloc]
  constructor
  · show ((w.bodies ++ [(a, b)]).map (·.1)).Nodup
    rw [List.map_append, List.nodup_append]
    refine ⟨j.keys, by simp, ?_⟩
    intro x hx y hy
    simp only [List.map_cons, List.map_nil, List.mem_singleton] at hy
    subst hy
    rintro rfl
    obtain ⟨⟨x, c⟩, h, rfl⟩ := List.mem_map.1 hx
    exact hn c h
  · intro x c hx
    rcases (hmem x c).1 hx with h | ⟨rfl, rfl⟩
    · exact j.even x c h
    · exact ⟨ha.1, ha.2.1⟩
  · intro x c hx
    have hcx := hc x
    show (if x = a then 1 else w.cnt x) = _ ∧ 0 < if x = a then 1 else w.cnt x
    simp only [W.owners, W.alloc, bodyCount_append, bodyCount_single, List.count_cons, beq_iff_eq]
    rcases (hmem x c).1 hx with h | ⟨rfl, rfl⟩
    · have hne : x ≠ a := fun e => hn c (e ▸ h)
      have := j.count x c h
      simp only [W.owners] at this
      rw [if_neg hne, if_neg (show ¬ a = x from fun e => hne e.symm)]
      omega
    · simp only [W.owners] at h0
      have : ¬ c = .double x := fun e => by
        obtain ⟨_, n, h⟩ := hd x e
        exact hn _ h
      rw [if_neg this] at hcx ⊢
      simp; omega
  · intro x hx
    rcases List.mem_cons.1 hx with rfl | hx
    · exact ⟨b, (hmem _ _).2 (.inr ⟨rfl, rfl⟩)⟩
    · have : 0 < tmp'.count x := List.count_pos_iff.2 hx
      have := hc x
      obtain ⟨c, h⟩ := j.tmpOk x (List.count_pos_iff.1 (by omega))
      exact ⟨c, hsub _ h⟩
  · exact fun x t h => (j.rustOk x t h).mono hsub fun _ h => h
  · exact fun x t h => (j.toForeignOk x t h).imp (·.mono hsub) (·.mono fun _ h => h)
  · exact fun x t h => (j.toRustOk x t h).imp (·.mono hsub) (·.mono fun _ h => h)
  · exact fun x t h => (j.proxyOk x t h).mono hsub
  · intro d c h
    rcases (hmem _ _).1 h with h | ⟨rfl, rfl⟩
    · obtain ⟨h1, n, h2⟩ := j.doubleOk d c h
      exact ⟨h1, n, hsub _ h2⟩
    · obtain ⟨h1, n, h2⟩ := hd c rfl
      exact ⟨h1, n, hsub _ h2⟩
  · intro x fh h
    rcases (hmem _ _).1 h with h | ⟨rfl, rfl⟩
    · exact j.wrapperOk x fh h
    · exact hw fh rfl
  · exact j.mapKeys
  · exact j.mapOdd
  · intro h hh
    have h1 := j.mapCount h hh
    have h2 := hcH h
    simp only [W.alloc, bodyCount_append, bodyCount_single]
    omega
  · intro n hn
    simp only [W.alloc, bodyCount_append, bodyCount_single, if_neg (ho n)]
    exact j.objOld n hn
  · intro n hn
    simp only [W.alloc, bodyCount_append, bodyCount_single, if_neg (ho n)]
    exact j.objNew n hn
  · intro x n h
    rcases (hmem _ _).1 h with h | ⟨_, h'⟩
    · exact j.objImpl x n h
    · exact absurd h'.symm (ho n)
  · exact j.made
  · exact j.calls
  · exact j.bad

/-- The allocation without its owner. -/
def W.freed (w : W) (a : Nat) : W :=
  { w with bodies := del w.bodies a, cnt := fun x => if x = a then 0 else w.cnt x }

/-- What is seen when the content of an allocation is dropped. -/
def Body.evs : Body → List Ev
  | .obj n => [.dropped n]
  | _ => []

/-- Freeing an allocation nobody owns. -/
theorem Inv.freed_aux (j : Inv k i (a :: tmp) tmpH w) {b : Body} (hb : (a, b) ∈ w.bodies)
    (h1 : w.cnt a = 1) (w' : W) (hw' : w' = { w.freed a with log := w.log ++ b.evs })
    (tmp' tmpH' : List Nat)
    (hc : ∀ x, tmp'.count x = tmp.count x + if b = .double x then 1 else 0)
    (hcH : ∀ x, tmpH'.count x = tmpH.count x + if b = .wrapper x then 1 else 0) :
    Inv k i tmp' tmpH' w' := by
  have hbodies : w'.bodies = del w.bodies a := by rw [hw']; rfl
  have hcnt : w'.cnt = fun x => if x = a then 0 else w.cnt x := by rw [hw']; rfl
  have hrust : w'.rust = w.rust := by rw [hw']; rfl
  have htf : w'.toForeign = w.toForeign := by rw [hw']; rfl
  have htr : w'.toRust = w.toRust := by rw [hw']; rfl
  have hpr : w'.proxies = w.proxies := by rw [hw']; rfl
  have hmap : w'.map = w.map := by rw [hw']; rfl
  have hnr : w'.nextRust = w.nextRust := by rw [hw']; rfl
  have hbad : w'.bad = w.bad := by rw [hw']; rfl
  have hlog : w'.log = w.log ++ b.evs := by rw [hw']
  have hcount := j.count a b hb
  simp only [W.owners, h1, List.count_cons_self] at hcount
  have r1 : refs a w.rust = 0 := by omega
  have r2 : refs a w.toForeign = 0 := by omega
  have r3 : refs a w.toRust = 0 := by omega
  have r4 : refs a w.proxies = 0 := by omega
  have r5 : bodyCount (.double a) w.bodies = 0 := by omega
  have r6 : tmp.count a = 0 := by omega
  have hne : ∀ l, refs a l = 0 → ∀ x t, (x, t) ∈ l → x ≠ a := by
    rintro l hl x t h rfl
    have := refs_pos h; omega
  have hnd : ∀ d c, (d, Body.double c) ∈ w.bodies → c ≠ a := by
    rintro d c h rfl
    have := bodyCount_pos h; omega
  have hkeep : ∀ x c, (x, c) ∈ w.bodies → x ≠ a → (x, c) ∈ w'.bodies := by
    intro x c h h'; rw [hbodies]; exact mem_del.2 ⟨h, h'⟩
  have hsub : ∀ x c, (x, c) ∈ w'.bodies → (x, c) ∈ w.bodies ∧ x ≠ a := by
    intro x c h; rw [hbodies] at h; exact mem_del.1 h
  have hHandle : ∀ h t, h ≠ a → w.RustHandle k h t → w'.RustHandle k h t := by
    rintro h t hx ⟨n, e, ⟨g1, g2⟩ | ⟨g1, c, g2, g3⟩⟩
    · exact ⟨n, e, .inl ⟨g1, hkeep _ _ g2 hx⟩⟩
    · exact ⟨n, e, .inr ⟨g1, c, hkeep _ _ g2 hx, hkeep _ _ g3 (hnd _ _ g2)⟩⟩
  have hFHandle : ∀ h t, w.ForeignHandle k h t → w'.ForeignHandle k h t := by
    rintro h t ⟨g1, f, g2, e⟩
    exact ⟨g1, f, hmap ▸ g2, e⟩
  have hbc := bodyCount_del j.keys hb
  constructor
  · rw [hbodies]; exact nodup_del j.keys
  · exact fun x c h => j.even x c (hsub x c h).1
  · intro x c h
    obtain ⟨h, hx⟩ := hsub x c h
    have h2 := j.count x c h
    have h3 := hbc (.double x)
    have h4 := hc x
    rw [hcnt]
    simp only [W.owners, hrust, htf, htr, hpr, hbodies, if_neg hx]
    simp only [W.owners, List.count_cons, beq_iff_eq] at h2
    rw [if_neg (fun e => hx e.symm)] at h2
    omega
  · intro x hx
    have h4 := hc x
    have h5 : 0 < tmp'.count x := List.count_pos_iff.2 hx
    by_cases hbx : b = .double x
    · obtain ⟨_, n, hb'⟩ := j.doubleOk a x (hbx ▸ hb)
      exact ⟨_, hkeep _ _ hb' (hnd a x (hbx ▸ hb))⟩
    · rw [if_neg hbx] at h4
      obtain ⟨c, h⟩ := j.tmpOk x (List.mem_cons_of_mem _ (List.count_pos_iff.1 (by omega)))
      refine ⟨c, hkeep _ _ h ?_⟩
      rintro rfl; omega
  · intro x t h
    rw [hrust] at h
    have hx := hne _ r1 x t h
    rcases j.rustOk x t h with ⟨n, g, e⟩ | ⟨g, fh, f, g1, g2, e⟩
    · exact .inl ⟨n, hkeep _ _ g hx, e⟩
    · exact .inr ⟨g, fh, f, hkeep _ _ g1 hx, hmap ▸ g2, e⟩
  · intro h t hh
    rw [htf] at hh
    exact (j.toForeignOk h t hh).imp (hHandle h t (hne _ r2 h t hh)) (hFHandle h t)
  · intro h t hh
    rw [htr] at hh
    exact (j.toRustOk h t hh).imp (hHandle h t (hne _ r3 h t hh)) (hFHandle h t)
  · intro h t hh
    rw [hpr] at hh
    exact hHandle h t (hne _ r4 h t hh) (j.proxyOk h t hh)
  · intro d c h
    have h := (hsub _ _ h).1
    obtain ⟨g1, n, g2⟩ := j.doubleOk d c h
    exact ⟨g1, n, hkeep _ _ g2 (hnd d c h)⟩
  · exact fun x fh h => j.wrapperOk x fh (hsub _ _ h).1
  · rw [hmap]; exact j.mapKeys
  · rw [hmap]; exact j.mapOdd
  · intro h hh
    have g1 := j.mapCount h hh
    have g2 := hbc (.wrapper h)
    have g3 := hcH h
    rw [hmap, htf, htr, hbodies]
    omega
  · intro n hn
    rw [hnr] at hn
    have g1 := j.objOld n hn
    have g2 := hbc (.obj n)
    rw [hbodies, hlog, drops_append]
    cases b with
    | obj m =>
      simp only [Body.evs, drops_single, Body.obj.injEq] at g2 ⊢; omega
    | _ => simp only [Body.evs, drops, List.count_nil, reduceCtorEq, if_false] at g1 g2 ⊢; omega
  · intro n hn
    rw [hnr] at hn
    have g1 := j.objNew n hn
    have g2 := hbc (.obj n)
    rw [hbodies, hlog, drops_append]
    cases b with
    | obj m =>
      simp only [Body.evs, drops_single, Body.obj.injEq] at g2 ⊢; omega
    | _ => simp only [Body.evs, drops, List.count_nil, reduceCtorEq, if_false] at g1 g2 ⊢; omega
  · exact fun x n h => j.objImpl x n (hsub _ _ h).1
  · intro n
    rw [hlog, hnr, ← j.made n]
    cases b <;> simp [Body.evs]
  · intro t u h
    apply j.calls t u
    rw [hlog] at h
    cases b <;> simpa [Body.evs] using h
  · rw [hbad]; exact j.bad

/-- Removing the entry of a foreign handle. -/
theorem Inv.del (j : Inv k i tmp (fh :: tmpH) w) (hodd : fh % 2 = 1) :
    (∃ f, (fh, f) ∈ w.map) ∧ Inv k i tmp tmpH { w with map := HandleMap.del w.map fh } := by
  have hc := j.mapCount fh hodd
  rw [List.count_cons_self] at hc
  obtain ⟨f, hf⟩ := exists_of_keyCount_pos (l := w.map) (a := fh) (by omega)
  have hd := keyCount_del j.mapKeys hf
  have h1 : keyCount fh w.map ≤ 1 := by
    have := hd fh
    have h0 : keyCount fh (HandleMap.del w.map fh) = 0 := by
      rw [keyCount, List.countP_eq_zero]
      rintro ⟨x, y⟩ hx
      simpa using (mem_del.1 hx).2
    simp at this; omega
  have r1 : refs fh w.toForeign = 0 := by omega
  have r2 : refs fh w.toRust = 0 := by omega
  have r3 : bodyCount (.wrapper fh) w.bodies = 0 := by omega
  have hne : ∀ l, refs fh l = 0 → ∀ x t, (x, t) ∈ l → x ≠ fh := by
    rintro l hl x t h rfl
    have := refs_pos h; omega
  refine ⟨⟨f, hf⟩, ?_⟩
  refine { j with rustOk := ?_, toForeignOk := ?_, toRustOk := ?_, mapKeys := nodup_del j.mapKeys,
                  mapOdd := fun h f hm => j.mapOdd h f (mem_del.1 hm).1, mapCount := ?_ }
  · intro x t h
    rcases j.rustOk x t h with g | ⟨g, fh', f, g1, g2, e⟩
    · exact .inl g
    · refine .inr ⟨g, fh', f, g1, mem_del.2 ⟨g2, ?_⟩, e⟩
      rintro rfl
      have := bodyCount_pos g1; omega
  · intro h t hh
    refine (j.toForeignOk h t hh).imp id ?_
    rintro ⟨g1, f, g2, e⟩
    exact ⟨g1, f, mem_del.2 ⟨g2, hne _ r1 h t hh⟩, e⟩
  · intro h t hh
    refine (j.toRustOk h t hh).imp id ?_
    rintro ⟨g1, f, g2, e⟩
    exact ⟨g1, f, mem_del.2 ⟨g2, hne _ r2 h t hh⟩, e⟩
  · intro h hh
    have g1 := j.mapCount h hh
    have g2 := hd h
    simp only [List.count_cons, beq_iff_eq] at g1
    dsimp only
    omega

theorem Inv.freeForeign (j : Inv k i tmp (fh :: tmpH) w) (hodd : fh % 2 = 1) :
    Inv k i tmp tmpH (w.freeForeign fh) := by
  obtain ⟨⟨f, hf⟩, h⟩ := j.del hodd
  rw [W.freeForeign, find_of_mem j.mapKeys hf]
  exact h

/-- Dropping a reference, given that a double `Arc` drops its content right. -/
theorem Inv.decrWith (inner : W → Nat → W) (j : Inv k i (a :: tmp) tmpH w)
    (hin : ∀ w' b n, (a, Body.double b) ∈ w.bodies → (b, Body.obj n) ∈ w'.bodies →
      Inv k i (b :: tmp) tmpH w' → Inv k i tmp tmpH (inner w' b)) :
    Inv k i tmp tmpH (w.decrWith inner a) := by
  obtain ⟨b, hb⟩ := j.tmpOk a (by simp)
  have hcount := j.count a b hb
  rw [W.decrWith, j.find_body hb]
  dsimp only
  split
  · rename_i h1
    cases b with
    | obj n =>
      exact j.freed_aux hb h1 _ rfl tmp tmpH (by simp) (by simp)
    | wrapper fh =>
      have := j.freed_aux hb h1 (w.freed a) (by simp [W.freed, Body.evs]) tmp (fh :: tmpH) (by simp) (by
        intro x; simp [List.count_cons])
      exact this.freeForeign (j.wrapperOk _ _ hb).2
    | double b =>
      obtain ⟨_, n, hbn⟩ := j.doubleOk a b hb
      have := j.freed_aux hb h1 (w.freed a) (by simp [W.freed, Body.evs]) (b :: tmp) tmpH (by
        intro x; simp [List.count_cons]) (by simp)
      obtain ⟨c, hc⟩ := this.tmpOk b (by simp)
      have hc' : (b, c) ∈ w.bodies := (mem_del.1 hc).1
      have := unique j.keys hc' hbn
      subst this
      exact hin _ b n hb hc (by assumption)
  · rename_i h1
    refine { j with count := ?_, tmpOk := fun x hx => j.tmpOk x (List.mem_cons_of_mem _ hx) }
    intro x c hx
    have := j.count x c hx
    simp only [W.owners, List.count_cons, beq_iff_eq] at this hcount ⊢
    by_cases hxa : x = a
    · subst hxa; simp only [if_true] at *; omega
    · have : ¬ a = x := fun h => hxa h.symm
      simp only [hxa, this, if_false] at *; omega

theorem Inv.decrInner {b n : Nat} (j : Inv k i (b :: tmp) tmpH w) (h : (b, Body.obj n) ∈ w.bodies) :
    Inv k i tmp tmpH (w.decrInner b) := by
  refine j.decrWith _ fun w' c m h1 _ _ => ?_
  have := unique j.keys h h1
  cases this

theorem Inv.decr (j : Inv k i (a :: tmp) tmpH w) : Inv k i tmp tmpH (w.decr a) :=
  j.decrWith _ fun _ _ _ _ h2 h3 => h3.decrInner h2

/-! ### Moving references between holders and a step -/

variable {h : Nat}

theorem Inv.takeRust (j : Inv k i tmp tmpH w) {h : Nat} {t : Who} (hm : (h, t) ∈ w.rust) (he : h % 2 = 0) (hb : ∃ b, (h, b) ∈ w.bodies) :
    Inv k i (h :: tmp) tmpH { w with rust := w.rust.erase (h, t) } := by
  have her := fun x => refs_erase (a := x) hm
  refine { j with
    count := ?_
    rustOk := fun x u hx => j.rustOk x u (List.mem_of_mem_erase hx)
    tmpOk := ?_ }
  · intro x c hx
    have g1 := j.count x c hx
    have g2 := her x
    have g3 := j.even x c hx
    simp only [W.owners, List.count_cons, beq_iff_eq] at g1 ⊢
    omega
  · intro x hx
    rcases List.mem_cons.1 hx with rfl | hx
    · exact hb
    · exact j.tmpOk x hx

theorem Inv.takeForeignE (j : Inv k i tmp tmpH w) {h : Nat} {t : Who} (hm : (h, t) ∈ w.toForeign) (he : h % 2 = 0) (hb : ∃ b, (h, b) ∈ w.bodies) :
    Inv k i (h :: tmp) tmpH { w with toForeign := w.toForeign.erase (h, t) } := by
  have her := fun x => refs_erase (a := x) hm
  refine { j with
    count := ?_
    toForeignOk := fun x u hx => j.toForeignOk x u (List.mem_of_mem_erase hx)
    tmpOk := ?_
    mapCount := ?_ }
  · intro x c hx
    have g1 := j.count x c hx
    have g2 := her x
    have g3 := j.even x c hx
    simp only [W.owners, List.count_cons, beq_iff_eq] at g1 ⊢
    omega
  · intro x hx
    rcases List.mem_cons.1 hx with rfl | hx
    · exact hb
    · exact j.tmpOk x hx
  · intro x hx
    have g1 := j.mapCount x hx
    have g2 := her x
    simp only [List.count_cons, beq_iff_eq] at g1 ⊢
    have : ¬ h = x := fun e => by subst e; omega
    rw [if_neg this] at g2
    omega

theorem Inv.takeForeignO (j : Inv k i tmp tmpH w) {h : Nat} {t : Who} (hm : (h, t) ∈ w.toForeign) (ho : h % 2 = 1) :
    Inv k i tmp (h :: tmpH) { w with toForeign := w.toForeign.erase (h, t) } := by
  have her := fun x => refs_erase (a := x) hm
  refine { j with
    count := ?_
    toForeignOk := fun x u hx => j.toForeignOk x u (List.mem_of_mem_erase hx)
    mapCount := ?_ }
  · intro x c hx
    have g1 := j.count x c hx
    have g2 := her x
    have g3 := j.even x c hx
    simp only [W.owners, List.count_cons, beq_iff_eq] at g1 ⊢
    have : ¬ h = x := fun e => by subst e; omega
    rw [if_neg this] at g2
    omega
  · intro x hx
    have g1 := j.mapCount x hx
    have g2 := her x
    simp only [List.count_cons, beq_iff_eq] at g1 ⊢
    omega

theorem Inv.takeToRustE (j : Inv k i tmp tmpH w) {h : Nat} {t : Who} (hm : (h, t) ∈ w.toRust) (he : h % 2 = 0) (hb : ∃ b, (h, b) ∈ w.bodies) :
    Inv k i (h :: tmp) tmpH { w with toRust := w.toRust.erase (h, t) } := by
  have her := fun x => refs_erase (a := x) hm
  refine { j with
    count := ?_
    toRustOk := fun x u hx => j.toRustOk x u (List.mem_of_mem_erase hx)
    tmpOk := ?_
    mapCount := ?_ }
  · intro x c hx
    have g1 := j.count x c hx
    have g2 := her x
    have g3 := j.even x c hx
    simp only [W.owners, List.count_cons, beq_iff_eq] at g1 ⊢
    omega
  · intro x hx
    rcases List.mem_cons.1 hx with rfl | hx
    · exact hb
    · exact j.tmpOk x hx
  · intro x hx
    have g1 := j.mapCount x hx
    have g2 := her x
    simp only [List.count_cons, beq_iff_eq] at g1 ⊢
    have : ¬ h = x := fun e => by subst e; omega
    rw [if_neg this] at g2
    omega

theorem Inv.takeToRustO (j : Inv k i tmp tmpH w) {h : Nat} {t : Who} (hm : (h, t) ∈ w.toRust) (ho : h % 2 = 1) :
    Inv k i tmp (h :: tmpH) { w with toRust := w.toRust.erase (h, t) } := by
  have her := fun x => refs_erase (a := x) hm
  refine { j with
    count := ?_
    toRustOk := fun x u hx => j.toRustOk x u (List.mem_of_mem_erase hx)
    mapCount := ?_ }
  · intro x c hx
    have g1 := j.count x c hx
    have g2 := her x
    have g3 := j.even x c hx
    simp only [W.owners, List.count_cons, beq_iff_eq] at g1 ⊢
    have : ¬ h = x := fun e => by subst e; omega
    rw [if_neg this] at g2
    omega
  · intro x hx
    have g1 := j.mapCount x hx
    have g2 := her x
    simp only [List.count_cons, beq_iff_eq] at g1 ⊢
    omega

theorem Inv.takeProxy (j : Inv k i tmp tmpH w) {h : Nat} {t : Who} (hm : (h, t) ∈ w.proxies) (he : h % 2 = 0) (hb : ∃ b, (h, b) ∈ w.bodies) :
    Inv k i (h :: tmp) tmpH { w with proxies := w.proxies.erase (h, t) } := by
  have her := fun x => refs_erase (a := x) hm
  refine { j with
    count := ?_
    proxyOk := fun x u hx => j.proxyOk x u (List.mem_of_mem_erase hx)
    tmpOk := ?_ }
  · intro x c hx
    have g1 := j.count x c hx
    have g2 := her x
    have g3 := j.even x c hx
    simp only [W.owners, List.count_cons, beq_iff_eq] at g1 ⊢
    omega
  · intro x hx
    rcases List.mem_cons.1 hx with rfl | hx
    · exact hb
    · exact j.tmpOk x hx

theorem Inv.putRust (j : Inv k i (h :: tmp) tmpH w) {t : Who} (he : h % 2 = 0) (hr : w.RustRef k h t) :
    Inv k i tmp tmpH { w with rust := w.rust ++ [(h, t)] } := by
  refine { j with
    count := ?_
    rustOk := ?_
    tmpOk := fun x hx => j.tmpOk x (List.mem_cons_of_mem _ hx) }
  · intro x c hx
    have g1 := j.count x c hx
    have g3 := j.even x c hx
    simp only [W.owners, List.count_cons, beq_iff_eq, refs_append, refs_single] at g1 ⊢
    omega
  · intro x u hx
    rcases List.mem_append.1 hx with hx | hx
    · exact j.rustOk x u hx
    · simp only [List.mem_singleton, Prod.mk.injEq] at hx
      obtain ⟨rfl, rfl⟩ := hx
      exact hr

theorem Inv.putForeignE (j : Inv k i (h :: tmp) tmpH w) {t : Who} (he : h % 2 = 0) (hr : w.RustHandle k h t ∨ w.ForeignHandle k h t) :
    Inv k i tmp tmpH { w with toForeign := w.toForeign ++ [(h, t)] } := by
  refine { j with
    count := ?_
    toForeignOk := ?_
    tmpOk := fun x hx => j.tmpOk x (List.mem_cons_of_mem _ hx)
    mapCount := ?_ }
  · intro x c hx
    have g1 := j.count x c hx
    have g3 := j.even x c hx
    simp only [W.owners, List.count_cons, beq_iff_eq, refs_append, refs_single] at g1 ⊢
    omega
  · intro x u hx
    rcases List.mem_append.1 hx with hx | hx
    · exact j.toForeignOk x u hx
    · simp only [List.mem_singleton, Prod.mk.injEq] at hx
      obtain ⟨rfl, rfl⟩ := hx
      exact hr
  · intro x hx
    have g1 := j.mapCount x hx
    simp only [List.count_cons, beq_iff_eq, refs_append, refs_single] at g1 ⊢
    have : ¬ h = x := fun e => by subst e; omega
    rw [if_neg this]
    omega

theorem Inv.putForeignO (j : Inv k i tmp (h :: tmpH) w) {t : Who} (ho : h % 2 = 1) (hr : w.RustHandle k h t ∨ w.ForeignHandle k h t) :
    Inv k i tmp tmpH { w with toForeign := w.toForeign ++ [(h, t)] } := by
  refine { j with
    count := ?_
    toForeignOk := ?_
    mapCount := ?_ }
  · intro x c hx
    have g1 := j.count x c hx
    have g3 := j.even x c hx
    simp only [W.owners, List.count_cons, beq_iff_eq, refs_append, refs_single] at g1 ⊢
    have : ¬ h = x := fun e => by subst e; omega
    rw [if_neg this]
    omega
  · intro x u hx
    rcases List.mem_append.1 hx with hx | hx
    · exact j.toForeignOk x u hx
    · simp only [List.mem_singleton, Prod.mk.injEq] at hx
      obtain ⟨rfl, rfl⟩ := hx
      exact hr
  · intro x hx
    have g1 := j.mapCount x hx
    simp only [List.count_cons, beq_iff_eq, refs_append, refs_single] at g1 ⊢
    omega

theorem Inv.putToRustE (j : Inv k i (h :: tmp) tmpH w) {t : Who} (he : h % 2 = 0) (hr : w.RustHandle k h t ∨ w.ForeignHandle k h t) :
    Inv k i tmp tmpH { w with toRust := w.toRust ++ [(h, t)] } := by
  refine { j with
    count := ?_
    toRustOk := ?_
    tmpOk := fun x hx => j.tmpOk x (List.mem_cons_of_mem _ hx)
    mapCount := ?_ }
  · intro x c hx
    have g1 := j.count x c hx
    have g3 := j.even x c hx
    simp only [W.owners, List.count_cons, beq_iff_eq, refs_append, refs_single] at g1 ⊢
    omega
  · intro x u hx
    rcases List.mem_append.1 hx with hx | hx
    · exact j.toRustOk x u hx
    · simp only [List.mem_singleton, Prod.mk.injEq] at hx
      obtain ⟨rfl, rfl⟩ := hx
      exact hr
  · intro x hx
    have g1 := j.mapCount x hx
    simp only [List.count_cons, beq_iff_eq, refs_append, refs_single] at g1 ⊢
    have : ¬ h = x := fun e => by subst e; omega
    rw [if_neg this]
    omega

theorem Inv.putToRustO (j : Inv k i tmp (h :: tmpH) w) {t : Who} (ho : h % 2 = 1) (hr : w.RustHandle k h t ∨ w.ForeignHandle k h t) :
    Inv k i tmp tmpH { w with toRust := w.toRust ++ [(h, t)] } := by
  refine { j with
    count := ?_
    toRustOk := ?_
    mapCount := ?_ }
  · intro x c hx
    have g1 := j.count x c hx
    have g3 := j.even x c hx
    simp only [W.owners, List.count_cons, beq_iff_eq, refs_append, refs_single] at g1 ⊢
    have : ¬ h = x := fun e => by subst e; omega
    rw [if_neg this]
    omega
  · intro x u hx
    rcases List.mem_append.1 hx with hx | hx
    · exact j.toRustOk x u hx
    · simp only [List.mem_singleton, Prod.mk.injEq] at hx
      obtain ⟨rfl, rfl⟩ := hx
      exact hr
  · intro x hx
    have g1 := j.mapCount x hx
    simp only [List.count_cons, beq_iff_eq, refs_append, refs_single] at g1 ⊢
    omega

theorem Inv.putProxy (j : Inv k i (h :: tmp) tmpH w) {t : Who} (he : h % 2 = 0) (hr : w.RustHandle k h t) :
    Inv k i tmp tmpH { w with proxies := w.proxies ++ [(h, t)] } := by
  refine { j with
    count := ?_
    proxyOk := ?_
    tmpOk := fun x hx => j.tmpOk x (List.mem_cons_of_mem _ hx) }
  · intro x c hx
    have g1 := j.count x c hx
    have g3 := j.even x c hx
    simp only [W.owners, List.count_cons, beq_iff_eq, refs_append, refs_single] at g1 ⊢
    omega
  · intro x u hx
    rcases List.mem_append.1 hx with hx | hx
    · exact j.proxyOk x u hx
    · simp only [List.mem_singleton, Prod.mk.injEq] at hx
      obtain ⟨rfl, rfl⟩ := hx
      exact hr

/-! ### Steps -/

theorem Inv.tmpPerm {tmp' : List Nat} (j : Inv k i tmp tmpH w) (hp : tmp.Perm tmp') :
    Inv k i tmp' tmpH w := by
  refine { j with count := ?_, tmpOk := fun x hx => j.tmpOk x (hp.mem_iff.2 hx) }
  intro x c hx
  have := j.count x c hx
  simp only [W.owners] at this ⊢
  rw [← hp.count_eq]
  exact this

theorem Inv.allocObj (j : Inv k i tmp tmpH w) {a : Nat} (ha : w.FreeAddr a) (hi : i = true) :
    Inv k i (a :: tmp) tmpH
      { (w.alloc a (.obj w.nextRust)).add (.made (.rust w.nextRust)) with
        nextRust := w.nextRust + 1 } := by
  obtain ⟨hn, h0⟩ := j.alloc_aux ha
  have hsub : ∀ p ∈ w.bodies, p ∈ w.bodies ++ [(a, Body.obj w.nextRust)] := fun p hp =>
    List.mem_append_left _ hp
  have hmem : ∀ x c, (x, c) ∈ w.bodies ++ [(a, Body.obj w.nextRust)] ↔
      (x, c) ∈ w.bodies ∨ (x = a ∧ c = .obj w.nextRust) := by intro x c; simp
  constructor <;> simp only [W.alloc, W.add]
  · rw [List.map_append, List.nodup_append]
    refine ⟨j.keys, by simp, ?_⟩
    intro x hx y hy
    simp only [List.map_cons, List.map_nil, List.mem_singleton] at hy
    subst hy
    rintro rfl
    obtain ⟨⟨x, c⟩, h, rfl⟩ := List.mem_map.1 hx
    exact hn c h
  · intro x c hx
    rcases (hmem x c).1 hx with h | ⟨rfl, rfl⟩
    · exact j.even x c h
    · exact ⟨ha.1, ha.2.1⟩
  · intro x c hx
    simp only [W.owners, bodyCount_append, bodyCount_single, List.count_cons, beq_iff_eq,
      reduceCtorEq, if_false]
    rcases (hmem x c).1 hx with h | ⟨rfl, rfl⟩
    · have hne : x ≠ a := fun e => hn c (e ▸ h)
      have := j.count x c h
      simp only [W.owners] at this
      rw [if_neg hne, if_neg (show ¬ a = x from fun e => hne e.symm)]
      omega
    · simp only [W.owners] at h0
      simp; omega
  · intro x hx
    rcases List.mem_cons.1 hx with rfl | hx
    · exact ⟨_, (hmem _ _).2 (.inr ⟨rfl, rfl⟩)⟩
    · obtain ⟨c, h⟩ := j.tmpOk x hx
      exact ⟨c, hsub _ h⟩
  · intro x t h
    refine W.RustRef.mono (w := w) ?_ ?_ (j.rustOk x t h)
    · exact hsub
    · exact fun _ h => h
  · exact fun x t h => (j.toForeignOk x t h).imp (·.mono hsub) (·.mono fun _ h => h)
  · exact fun x t h => (j.toRustOk x t h).imp (·.mono hsub) (·.mono fun _ h => h)
  · exact fun x t h => (j.proxyOk x t h).mono hsub
  · intro d c h
    rcases (hmem _ _).1 h with h | ⟨_, h'⟩
    · obtain ⟨h1, n, h2⟩ := j.doubleOk d c h
      exact ⟨h1, n, hsub _ h2⟩
    · cases h'
  · intro x fh h
    rcases (hmem _ _).1 h with h | ⟨_, h'⟩
    · exact j.wrapperOk x fh h
    · cases h'
  · exact j.mapKeys
  · exact j.mapOdd
  · intro h hh
    have h1 := j.mapCount h hh
    simp only [bodyCount_append, bodyCount_single, reduceCtorEq, if_false]
    exact h1
  · intro n hn
    have hd : drops n [Ev.made (.rust w.nextRust)] = 0 := rfl
    simp only [bodyCount_append, bodyCount_single, drops_append, Body.obj.injEq, hd]
    by_cases h : w.nextRust = n
    · have := j.objNew n (by omega)
      simp [h]; omega
    · have := j.objOld n (by omega)
      simp [h]; omega
  · intro n hn
    have hd : drops n [Ev.made (.rust w.nextRust)] = 0 := rfl
    simp only [bodyCount_append, bodyCount_single, drops_append, Body.obj.injEq, hd]
    have := j.objNew n (by omega)
    rw [if_neg (by omega)]
    omega
  · exact fun _ _ _ => hi
  · intro n
    have := j.made n
    simp only [List.mem_append, List.mem_singleton, Ev.made.injEq, Who.rust.injEq, this]
    omega
  · intro t u h
    apply j.calls t u
    simpa using h
  · exact j.bad

/-- A new entry in the foreign handle map. -/
theorem Inv.insertMap (j : Inv k i tmp tmpH w) {h : Nat} (hf : w.FreeHandle h) (f : Nat) :
    Inv k i tmp (h :: tmpH) { w with map := (h, f) :: w.map } := by
  have hn := find_none hf.2
  have hsub : ∀ p ∈ w.map, p ∈ (h, f) :: w.map := fun p hp => List.mem_cons_of_mem _ hp
  refine { j with
    rustOk := ?_
    toForeignOk := fun x t hx => (j.toForeignOk x t hx).imp id (·.mono hsub)
    toRustOk := fun x t hx => (j.toRustOk x t hx).imp id (·.mono hsub)
    mapKeys := ?_, mapOdd := ?_, mapCount := ?_ }
  · intro x t hx
    refine W.RustRef.mono (w := w) ?_ ?_ (j.rustOk x t hx)
    · exact fun _ h => h
    · exact hsub
  · rw [List.map_cons, List.nodup_cons]
    refine ⟨?_, j.mapKeys⟩
    intro hx
    obtain ⟨⟨x, c⟩, h1, h2⟩ := List.mem_map.1 hx
    cases h2
    exact hn c h1
  · intro x y hx
    rcases List.mem_cons.1 hx with hx | hx
    · cases hx; exact hf.1
    · exact j.mapOdd x y hx
  · intro x hx
    have := j.mapCount x hx
    simp only [keyCount_cons, List.count_cons, beq_iff_eq]
    omega

theorem Inv.addEv (j : Inv k i tmp tmpH w) {e : Ev} (h1 : ∀ n, e ≠ .dropped n)
    (h2 : ∀ n, e ≠ .made (.rust n)) (h3 : ∀ t u, e = .call t u ∨ e = .back t u → t = u) :
    Inv k i tmp tmpH (w.add e) := by
  have hd : ∀ n, drops n [e] = 0 := fun n => by
    simp only [drops]; rw [List.count_eq_zero]; simpa using fun h => h1 n h.symm
  refine { j with objOld := ?_, objNew := ?_, made := ?_, calls := ?_ }
  · intro n hn; simp only [W.add, drops_append, hd]; exact j.objOld n hn
  · intro n hn; simp only [W.add, drops_append, hd]; exact j.objNew n hn
  · intro n
    simp only [W.add, List.mem_append, List.mem_singleton]
    rw [← j.made n]
    exact ⟨fun h => h.resolve_right fun h => h2 n h.symm, .inl⟩
  · intro t u h
    simp only [W.add, List.mem_append, List.mem_singleton] at h
    rcases h with (h | h) | (h | h)
    · exact j.calls t u (.inl h)
    · exact h3 t u (.inl h.symm)
    · exact j.calls t u (.inr h)
    · exact h3 t u (.inr h.symm)

theorem W.RustHandle.even (j : Inv k i tmp tmpH w) {t : Who} (hr : w.RustHandle k h t) :
    h % 2 = 0 ∧ ∃ b, (h, b) ∈ w.bodies := by
  obtain ⟨n, _, ⟨_, g⟩ | ⟨_, b, g, _⟩⟩ := hr
  · exact ⟨(j.even _ _ g).1, _, g⟩
  · exact ⟨(j.even _ _ g).1, _, g⟩

theorem W.ForeignHandle.odd (j : Inv k i tmp tmpH w) {t : Who} (hr : w.ForeignHandle k h t) :
    h % 2 = 1 := by
  obtain ⟨_, f, g, _⟩ := hr
  exact j.mapOdd _ _ g

theorem W.RustRef.even (j : Inv k i tmp tmpH w) {t : Who} (hr : w.RustRef k h t) :
    h % 2 = 0 ∧ ∃ b, (h, b) ∈ w.bodies := by
  rcases hr with ⟨n, g, _⟩ | ⟨_, fh, f, g, _⟩
  · exact ⟨(j.even _ _ g).1, _, g⟩
  · exact ⟨(j.even _ _ g).1, _, g⟩

theorem W.incr_eq (j : Inv k i tmp tmpH w) {a : Nat} {b : Body} (h : (a, b) ∈ w.bodies) :
    w.incr a = { w with cnt := fun x => if x = a then w.cnt a + 1 else w.cnt x } := by
  simp [W.incr, j.find_body h]

theorem decrWith_sub (inner : W → Nat → W) (hin : ∀ w b p, p ∈ (inner w b).bodies → p ∈ w.bodies)
    (w : W) (a : Nat) (p : Nat × Body) (hp : p ∈ (w.decrWith inner a).bodies) : p ∈ w.bodies := by
  simp only [W.decrWith] at hp
  split at hp
  · exact hp
  · split at hp
    · split at hp
      · exact (mem_del.1 hp).1
      · simp only [W.freeForeign] at hp
        split at hp
        · exact (mem_del.1 hp).1
        · exact (mem_del.1 hp).1
      · exact (mem_del.1 (hin _ _ _ hp)).1
    · exact hp

theorem decr_sub (w : W) (a : Nat) (p : Nat × Body) (hp : p ∈ (w.decr a).bodies) : p ∈ w.bodies :=
  decrWith_sub W.decrInner (decrWith_sub (fun w _ => { w with bad := true }) fun _ _ _ h => h)
    w a p hp

theorem Inv.lowerDouble (j : Inv k i (a :: tmp) tmpH w) {d n : Nat} {t : Who} (hd : w.FreeAddr d)
    (hk : k ≠ .struct) (hb : (a, Body.obj n) ∈ w.bodies) (ht : t = .rust n) :
    Inv k i tmp tmpH (w.lowerDouble a d t) := by
  have j1 := j.alloc hd (b := .double a) (tmp' := tmp) (tmpH' := tmpH)
    (by intro x; simp [List.count_cons]) (by simp) (by simp)
    (fun c hc => by cases hc; exact ⟨hk, n, hb⟩) (by simp)
  refine j1.putForeignE hd.1 (.inl ⟨n, ht, .inr ⟨hk, a, ?_, ?_⟩⟩)
  · simp [W.alloc]
  · simp [W.alloc, hb]

theorem Inv.liftDouble (j : Inv k i (h :: tmp) tmpH w) {t : Who} (hr : w.RustHandle k h t)
    (hk : k ≠ .struct) : Inv k i tmp tmpH (w.liftDouble h t) := by
  obtain ⟨n, ht, ⟨g, _⟩ | ⟨_, b, g1, g2⟩⟩ := hr
  · exact absurd g hk
  · rw [W.liftDouble, j.find_body g1]
    dsimp only
    have j1 := ((j.incr g2).tmpPerm (List.Perm.swap h b tmp)).decr
    obtain ⟨c, hc⟩ := j1.tmpOk b (by simp)
    have hc' := decr_sub _ _ _ hc
    rw [W.incr_eq j g2] at hc'
    have := unique j.keys hc' g2
    subst this
    exact j1.putRust (j.even _ _ g2).1 (.inl ⟨n, hc, ht⟩)

theorem Inv.liftWrapper (j : Inv k i tmp (h :: tmpH) w) {a : Nat} {t : Who} (ha : w.FreeAddr a)
    (hr : w.ForeignHandle k h t) : Inv k i tmp tmpH (w.liftWrapper h a t) := by
  have hodd := hr.odd j
  obtain ⟨hk, f, g, e⟩ := hr
  have j1 := j.alloc ha (b := .wrapper h) (tmp' := tmp) (tmpH' := tmpH) (by simp)
    (by intro x; simp [List.count_cons]) (by simp) (by simp)
    (fun fh hfh => by cases hfh; exact ⟨hk, hodd⟩)
  refine j1.putRust ha.1 (.inr ⟨hk, h, f, ?_, g, e⟩)
  simp [W.alloc]

/-- Rust code does not implement a trait declared as implemented by the foreign side only. -/
def Fits (k : Kind) (rustImpl : Bool) : Prop := k = .foreignOnly ∨ k = .callback → rustImpl = false

theorem Inv.step {w' : W} (hfit : Fits k i) (j : Inv k i [] [] w) (hs : Step k i w w') :
    Inv k i [] [] w' := by
  cases hs with
  | rustNew a hi ha =>
    have j1 := (j.allocObj ha hi).putRust (t := .rust w.nextRust) ha.1
      (.inl ⟨_, by simp [W.alloc, W.add], rfl⟩)
    exact j1
  | rustClone a t hk ht =>
    have hr := j.rustOk a t ht
    obtain ⟨he, b, hb⟩ := hr.even j
    have j1 := j.incr hb
    rw [W.incr_eq j hb] at j1 ⊢
    exact j1.putRust he (hr.mono (fun _ h => h) fun _ h => h)
  | rustDrop a t ht =>
    have hr := j.rustOk a t ht
    obtain ⟨he, hb⟩ := hr.even j
    exact (j.takeRust ht he hb).decr
  | rustCall a t ht =>
    rcases j.rustOk a t ht with ⟨n, g, e⟩ | ⟨_, fh, f, g1, g2, e⟩
    · rw [W.call, j.find_body g]
      exact j.addEv (by simp) (by simp) (by subst e; rintro t u (h | h) <;> cases h; rfl)
    · rw [W.call, j.find_body g1]
      dsimp only
      rw [find_of_mem j.mapKeys g2]
      exact j.addEv (by simp) (by simp) (by subst e; rintro t u (h | h) <;> cases h; rfl)
  | rustLower w' a d h t ht hd hh hl =>
    have hr := j.rustOk a t ht
    obtain ⟨he, hb⟩ := hr.even j
    have j1 := j.takeRust ht he hb
    have hbody : ∀ b, (a, b) ∈ w.bodies →
        find ({ w with rust := w.rust.erase (a, t) } : W).bodies a = some b := fun b h => j.find_body h
    have hboth : k.hasForeign = true → (match find ({ w with rust := w.rust.erase (a, t) } : W).bodies a with
        | some (.obj _) => some (({ w with rust := w.rust.erase (a, t) } : W).lowerDouble a d t)
        | some (.wrapper fh) =>
          match find ({ w with rust := w.rust.erase (a, t) } : W).map fh with
          | none => some { ({ w with rust := w.rust.erase (a, t) } : W) with bad := true }
          | some f => some
              ({ ({ w with rust := w.rust.erase (a, t) } : W) with
                  map := (h, f) :: w.map, toForeign := w.toForeign ++ [(h, t)] }.decr a)
        | _ => some { ({ w with rust := w.rust.erase (a, t) } : W) with bad := true }) = some w' →
        Inv k i [] [] w' := by
      intro hk hl
      rcases hr with ⟨n, g, e⟩ | ⟨_, fh, f, g1, g2, e⟩
      · rw [hbody _ g] at hl
        simp only [Option.some.injEq] at hl
        rw [← hl]
        exact j1.lowerDouble hd (by rintro rfl; cases hk) g e
      · rw [hbody _ g1] at hl
        dsimp only at hl
        rw [find_of_mem j.mapKeys g2] at hl
        simp only [Option.some.injEq] at hl
        rw [← hl]
        have j2 := (j1.insertMap (h := h) hh f).putForeignO (t := t) hh.1
          (.inr ⟨hk, f, by simp, e⟩)
        exact j2.decr
    cases hkk : k with
    | struct =>
      subst hkk
      simp only [W.lower, Option.some.injEq] at hl
      rw [← hl]
      rcases hr with ⟨n, g, e⟩ | ⟨g, _⟩
      · exact j1.putForeignE he (.inl ⟨n, e, .inl ⟨rfl, g⟩⟩)
      · cases g
    | rustOnly =>
      subst hkk
      simp only [W.lower, Option.some.injEq] at hl
      rw [← hl]
      rcases hr with ⟨n, g, e⟩ | ⟨g, _⟩
      · exact j1.lowerDouble hd (by simp) g e
      · cases g
    | callback => subst hkk; simp [W.lower] at hl
    | both => subst hkk; exact hboth rfl hl
    | foreignOnly => subst hkk; exact hboth rfl hl
  | rustLift h a t hh ha =>
    have hr := j.toRustOk h t hh
    have hrust : w.RustHandle k h t → k ≠ .struct →
        Inv k i [] [] (({ w with toRust := w.toRust.erase (h, t) } : W).liftDouble h t) := by
      intro hr hk
      obtain ⟨he, hb⟩ := hr.even j
      exact (j.takeToRustE hh he hb).liftDouble hr hk
    have hfor : w.ForeignHandle k h t →
        Inv k i [] [] (({ w with toRust := w.toRust.erase (h, t) } : W).liftWrapper h a t) := by
      intro hr
      exact (j.takeToRustO hh (hr.odd j)).liftWrapper ha hr
    cases hkk : k with
    | struct =>
      subst hkk
      rcases hr with hr | ⟨g, _⟩
      · obtain ⟨he, hb⟩ := hr.even j
        obtain ⟨n, e, ⟨_, g⟩ | ⟨g, _⟩⟩ := hr
        · exact (j.takeToRustE hh he hb).putRust he (.inl ⟨n, g, e⟩)
        · exact absurd rfl g
      · cases g
    | rustOnly =>
      subst hkk
      rcases hr with hr | ⟨g, _⟩
      · exact hrust hr (by simp)
      · cases g
    | both =>
      subst hkk
      rcases hr with hr | hr
      · have : ¬ h % 2 = 1 := by have := (hr.even j).1; omega
        simp only [W.lift, if_neg this]
        exact hrust hr (by simp)
      · simp only [W.lift, if_pos (hr.odd j)]
        exact hfor hr
    | foreignOnly =>
      subst hkk
      rcases hr with ⟨n, e, ⟨g, _⟩ | ⟨_, b, _, g⟩⟩ | hr
      · cases g
      · have h1 := j.objImpl _ _ g
        have h2 := hfit (.inl rfl)
        rw [h1] at h2; cases h2
      · exact hfor hr
    | callback =>
      subst hkk
      rcases hr with ⟨n, e, ⟨g, _⟩ | ⟨_, b, _, g⟩⟩ | hr
      · cases g
      · have h1 := j.objImpl _ _ g
        have h2 := hfit (.inr rfl)
        rw [h1] at h2; cases h2
      · exact hfor hr
  | foreignNew hk =>
    have j1 := j.addEv (e := .made (.foreign w.nextForeign)) (by simp) (by simp) (by simp)
    exact { j1 with }
  | lowerProxy h t hp =>
    have hr := j.proxyOk h t hp
    obtain ⟨he, b, hb⟩ := hr.even j
    have j1 := j.incr hb
    rw [W.incr_eq j hb] at j1 ⊢
    exact j1.putToRustE he (.inl (hr.mono fun _ h => h))
  | lowerImpl h f hk hf hh =>
    exact (j.insertMap hh f).putToRustO hh.1 (.inr ⟨hk, f, by simp, rfl⟩)
  | foreignLift h t hh =>
    rcases j.toForeignOk h t hh with hr | hr
    · obtain ⟨he, hb⟩ := hr.even j
      have : ¬ (k.hasForeign && h % 2 == 1) = true := by simp [he]
      rw [W.foreignLift, if_neg this]
      exact (j.takeForeignE hh he hb).putProxy he hr
    · have ho := hr.odd j
      have : (k.hasForeign && h % 2 == 1) = true := by simp [ho, hr.1]
      rw [W.foreignLift, if_pos this]
      obtain ⟨_, f, g, e⟩ := hr
      have hfind : find ({ w with toForeign := w.toForeign.erase (h, t) } : W).map h = some f :=
        find_of_mem j.mapKeys g
      rw [hfind]
      have j1 := (j.takeForeignO hh ho).del ho |>.2
      exact j1.addEv (by simp) (by simp) (by subst e; rintro t u (h | h) <;> cases h; rfl)
  | foreignFree h t hp =>
    have hr := j.proxyOk h t hp
    obtain ⟨he, hb⟩ := hr.even j
    exact (j.takeProxy hp he hb).decr

theorem Reach.inv (hfit : Fits k i) (h : Reach k i w) : Inv k i [] [] w := by
  induction h with
  | init => exact .init k i
  | step w w' _ hs ih => exact ih.step hfit hs

end Verif.Objects
