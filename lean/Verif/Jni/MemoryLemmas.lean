import Verif.Jni.Memory
/-
Lemmas about the native memory.
-/
namespace Verif.Jni
open Verif.Wire (IntTy Val)

/-- The run ends with a result that meets `Q`, or for want of memory. -/
def Sat {α : Type} (c : M α) (h : Heap) (Q : α → Heap → Prop) : Prop :=
  match c h with
  | .ok (a, h') => Q a h'
  | .error .oom => True
  | .error _ => False

theorem Sat.pure {α : Type} {a : α} {h : Heap} {Q : α → Heap → Prop} (hq : Q a h) : Sat (Pure.pure a : M α) h Q := hq

theorem Sat.pure' {α : Type} {a : α} {h : Heap} {Q : α → Heap → Prop} (hq : Q a h) : Sat (M.pure a) h Q := hq

theorem Sat.bind {α β : Type} {c : M α} {k : α → M β} {h : Heap} {Q : β → Heap → Prop}
    (hc : Sat c h fun a h' => Sat (k a) h' Q) : Sat (c >>= k) h Q := by
  show Sat (M.bind c k) h Q
  unfold Sat M.bind at *
  cases e : c h with
  | error x => rw [e] at hc; cases x <;> exact hc
  | ok r => rw [e] at hc; exact hc

theorem Sat.imp {α : Type} {c : M α} {h : Heap} {Q Q' : α → Heap → Prop} (hc : Sat c h Q)
    (hq : ∀ a h', Q a h' → Q' a h') : Sat c h Q' := by
  unfold Sat at *
  cases e : c h with
  | error x => rw [e] at hc; cases x <;> exact hc
  | ok r => rw [e] at hc; exact hq _ _ hc

theorem Sat.some! {α : Type} {e : Err} {o : Option α} {a : α} {h : Heap} {Q : α → Heap → Prop} (ho : o = some a)
    (hq : Q a h) : Sat (M.some! e o) h Q := by
  subst ho; exact hq

/-- `let a ← M.some! …; k a`, when the value is there. -/
theorem Sat.someBind {α β : Type} {e : Err} {o : Option α} {a : α} {k : α → M β} {h : Heap} {Q : β → Heap → Prop}
    (ho : o = some a) (hq : Sat (k a) h Q) : Sat (M.some! e o >>= k) h Q :=
  Sat.bind (Sat.some! ho hq)

/-! ### Bytes -/

/-- The `n` bytes from an offset on are those of a number. -/
def HasLE (bytes : Nat → Option Nat) (off : Nat) : Nat → Nat → Prop
  | 0, x => x = 0
  | n + 1, x => bytes off = some (x % 256) ∧ HasLE bytes (off + 1) n (x / 256)

theorem readLE_of_has {bytes : Nat → Option Nat} :
    ∀ (n off x : Nat), HasLE bytes off n x → readLE bytes off n = some x
  | 0, _, _, h => by cases h; rfl
  | n + 1, off, x, h => by
    unfold readLE
    rw [h.1, readLE_of_has n _ _ h.2]
    simp only [Option.bind_eq_bind, Option.bind_some, Option.some.injEq]
    omega

theorem hasLE_congr {bytes bytes' : Nat → Option Nat} :
    ∀ (n off x : Nat), (∀ i, off ≤ i → i < off + n → bytes' i = bytes i) → HasLE bytes off n x →
      HasLE bytes' off n x
  | 0, _, _, _, h => h
  | n + 1, off, x, he, h => by
    refine ⟨?_, hasLE_congr n _ _ (fun i h1 h2 => he i (by omega) (by omega)) h.2⟩
    rw [he off (Nat.le_refl _) (by omega)]
    exact h.1

theorem writeLE_outside : ∀ (n x : Nat) (bytes : Nat → Option Nat) (off i : Nat), ¬ (off ≤ i ∧ i < off + n) →
    writeLE bytes off n x i = bytes i
  | 0, _, _, _, _, _ => rfl
  | n + 1, x, bytes, off, i, h => by
    unfold writeLE
    rw [writeLE_outside n _ _ _ _ (by omega), if_neg (by omega)]

theorem hasLE_write : ∀ (n x : Nat) (bytes : Nat → Option Nat) (off : Nat), x < 256 ^ n →
    HasLE (writeLE bytes off n x) off n x
  | 0, x, _, _, h => by simpa [HasLE] using h
  | n + 1, x, bytes, off, h => by
    refine ⟨?_, ?_⟩
    · unfold writeLE
      rw [writeLE_outside n _ _ _ _ (by omega), if_pos rfl]
    · unfold writeLE
      exact hasLE_write n _ _ _ (by rw [Nat.pow_succ] at h; omega)

/-! ### Numbers in buffers -/

/-- A number lies in a buffer. -/
def NumAt (h : Heap) (b off n x : Nat) : Prop :=
  ∃ size bytes, h b = some (.buffer size bytes) ∧ off + n ≤ size ∧ HasLE bytes off n x

/-- The heaps have a buffer of the same size at `b`, with the same bytes from `lo` to `hi`. -/
def SameBytes (h h' : Heap) (b lo hi : Nat) : Prop :=
  ∃ size bytes bytes', h b = some (.buffer size bytes) ∧ h' b = some (.buffer size bytes') ∧
    ∀ i, lo ≤ i → i < hi → bytes' i = bytes i

theorem SameBytes.mono {h h' : Heap} {b lo hi lo' hi' : Nat} (hs : SameBytes h h' b lo hi) (h1 : lo ≤ lo')
    (h2 : hi' ≤ hi) : SameBytes h h' b lo' hi' := by
  obtain ⟨size, bs, bs', e1, e2, e3⟩ := hs
  exact ⟨size, bs, bs', e1, e2, fun i i1 i2 => e3 i (by omega) (by omega)⟩

theorem NumAt.congr {h h' : Heap} {b off n x : Nat} (ha : NumAt h b off n x) (hs : SameBytes h h' b off (off + n)) :
    NumAt h' b off n x := by
  obtain ⟨size, bs, e1, e2, e3⟩ := ha
  obtain ⟨size', bs', bs'', f1, f2, f3⟩ := hs
  rw [e1] at f1
  cases f1
  exact ⟨size, bs'', f2, e2, hasLE_congr _ _ _ f3 e3⟩

theorem load_sat {s : Side} {h : Heap} {b off n x : Nat} (ha : NumAt h b off n x) (hd : n ∣ off)
    {Q : Nat → Heap → Prop} (hq : Q x h) : Sat (load s b off n) h Q := by
  obtain ⟨size, bs, e1, e2, e3⟩ := ha
  have hm : off % n = 0 := Nat.mod_eq_zero_of_dvd hd
  unfold Sat load
  cases s <;> simp only [e1, e2, hm, and_self, if_true, readLE_of_has _ _ _ e3] <;> exact hq

/-- The bytes of a buffer from `lo` to `hi` were written; the blocks `own` are new; nothing else
changed. -/
structure Grew (h h' : Heap) (b lo hi : Nat) (own : List Nat) : Prop where
  new : ∀ a ∈ own, h a = none
  rest : ∀ a, a ≠ b → a ∉ own → h' a = h a
  bytes : ∃ size bs bs', h b = some (.buffer size bs) ∧ h' b = some (.buffer size bs') ∧
    ∀ i, ¬ (lo ≤ i ∧ i < hi) → bs' i = bs i

theorem Grew.notMem {h h' : Heap} {b lo hi : Nat} {own : List Nat} (g : Grew h h' b lo hi own) : b ∉ own := by
  intro hb
  obtain ⟨size, bs, bs', e1, _⟩ := g.bytes
  rw [g.new b hb] at e1
  exact nomatch e1

theorem Grew.refl {h : Heap} {b size : Nat} {bs : Nat → Option Nat} (hb : h b = some (.buffer size bs)) (lo hi : Nat) :
    Grew h h b lo hi [] :=
  ⟨by simp, fun _ _ _ => rfl, size, bs, bs, hb, hb, fun _ _ => rfl⟩

theorem Grew.mono {h h' : Heap} {b lo hi lo' hi' : Nat} {own : List Nat} (g : Grew h h' b lo hi own) (h1 : lo' ≤ lo)
    (h2 : hi ≤ hi') : Grew h h' b lo' hi' own := by
  obtain ⟨size, bs, bs', e1, e2, e3⟩ := g.bytes
  exact ⟨g.new, g.rest, size, bs, bs', e1, e2, fun i hi => e3 i (by omega)⟩

theorem Grew.trans {h h1 h2 : Heap} {b lo hi : Nat} {o1 o2 : List Nat} (g1 : Grew h h1 b lo hi o1)
    (g2 : Grew h1 h2 b lo hi o2) : Grew h h2 b lo hi (o1 ++ o2) ∧ ∀ a ∈ o1, a ∉ o2 ∨ h1 a = none := by
  obtain ⟨size, bs, bs', e1, e2, e3⟩ := g1.bytes
  obtain ⟨size', bs1, bs2, f1, f2, f3⟩ := g2.bytes
  rw [e2] at f1
  cases f1
  refine ⟨⟨?_, ?_, size, bs, bs2, e1, f2, fun i hi => by rw [f3 i hi, e3 i hi]⟩, ?_⟩
  · intro a ha
    rcases List.mem_append.1 ha with ha | ha
    · exact g1.new a ha
    · by_cases h1' : a ∈ o1
      · exact g1.new a h1'
      · by_cases hb : a = b
        · exact absurd ha (hb ▸ g2.notMem)
        · rw [← g1.rest a hb h1']
          exact g2.new a ha
  · intro a hb ha
    rw [List.mem_append, not_or] at ha
    rw [g2.rest a hb ha.2, g1.rest a hb ha.1]
  · intro a _
    by_cases h2 : a ∈ o2
    · exact Or.inr (g2.new a h2)
    · exact Or.inl h2

theorem Grew.size {h h' : Heap} {b lo hi size : Nat} {bs : Nat → Option Nat} {own : List Nat}
    (g : Grew h h' b lo hi own) (hb : h b = some (.buffer size bs)) : ∃ bs', h' b = some (.buffer size bs') := by
  obtain ⟨size', bs1, bs2, e1, e2, _⟩ := g.bytes
  rw [hb] at e1
  cases e1
  exact ⟨bs2, e2⟩

theorem Grew.same {h h' : Heap} {b lo hi lo' hi' : Nat} {own : List Nat} (g : Grew h h' b lo hi own)
    (hd : hi' ≤ lo ∨ hi ≤ lo') : SameBytes h h' b lo' hi' := by
  obtain ⟨size, bs, bs', e1, e2, e3⟩ := g.bytes
  exact ⟨size, bs, bs', e1, e2, fun i h1 h2 => e3 i (by omega)⟩

theorem store_sat {s : Side} {h : Heap} {b off n x size : Nat} {bs : Nat → Option Nat} (hx : x < 256 ^ n)
    (hb : h b = some (.buffer size bs)) (hsz : off + n ≤ size) (hd : n ∣ off) :
    Sat (store s b off n x) h fun _ h' => NumAt h' b off n x ∧ Grew h h' b off (off + n) [] := by
  have hm : off % n = 0 := Nat.mod_eq_zero_of_dvd hd
  have key : NumAt (h.set b (some (.buffer size (writeLE bs off n x)))) b off n x ∧
      Grew h (h.set b (some (.buffer size (writeLE bs off n x)))) b off (off + n) [] := by
    refine ⟨⟨size, writeLE bs off n x, by simp [Heap.set], hsz, hasLE_write _ _ _ _ hx⟩, by simp, ?_, size, bs,
      writeLE bs off n x, hb, by simp [Heap.set], ?_⟩
    · intro a ha _
      simp [Heap.set, ha]
    · intro i hi
      exact writeLE_outside _ _ _ _ _ hi
  unfold Sat store
  cases s <;> simp only [hb, hsz, hm, and_self, if_true] <;> exact key

/-! ### Removing blocks -/

/-- The heap without some blocks. -/
def Heap.drop (h : Heap) (own : List Nat) : Heap := fun a => if a ∈ own then none else h a

theorem drop_nil (h : Heap) : h.drop [] = h := by funext a; simp [Heap.drop]

theorem drop_drop (h : Heap) (o1 o2 : List Nat) : (h.drop o1).drop o2 = h.drop (o1 ++ o2) := by
  funext a
  by_cases h1 : a ∈ o1 <;> by_cases h2 : a ∈ o2 <;> simp [Heap.drop, h1, h2]

theorem drop_of_not_mem {h : Heap} {own : List Nat} {a : Nat} (ha : a ∉ own) : h.drop own a = h a := by
  simp [Heap.drop, ha]

theorem set_none (h : Heap) (a : Nat) : h.set a none = h.drop [a] := by
  funext x
  by_cases hx : x = a <;> simp [Heap.set, Heap.drop, hx]

theorem drop_cons (h : Heap) (a : Nat) (own : List Nat) : (h.drop own).drop [a] = h.drop (a :: own) := by
  rw [drop_drop]
  funext x
  by_cases h1 : x ∈ own <;> by_cases h2 : x = a <;> simp [Heap.drop, h1, h2]

/-! ### Strings -/

/-- A string lies in a buffer, and owns a block unless it is empty. -/
def TextAt (h : Heap) (b off : Nat) (str : String) (own : List Nat) : Prop :=
  ∃ a cap, NumAt h b off 8 a ∧ NumAt h b (off + 8) 8 str.utf8ByteSize ∧ NumAt h b (off + 16) 8 cap ∧
    ((cap = 0 ∧ str = "" ∧ own = []) ∨ (cap ≠ 0 ∧ h a = some (.text str cap) ∧ own = [a]))

theorem TextAt.congr {h h' : Heap} {b off : Nat} {str : String} {own : List Nat} (ht : TextAt h b off str own)
    (hs : SameBytes h h' b off (off + 24)) (ho : ∀ a ∈ own, h' a = h a) : TextAt h' b off str own := by
  obtain ⟨a, cap, n1, n2, n3, hc⟩ := ht
  refine ⟨a, cap, n1.congr (hs.mono (by omega) (by omega)), n2.congr (hs.mono (by omega) (by omega)),
    n3.congr (hs.mono (by omega) (by omega)), ?_⟩
  rcases hc with hc | ⟨c1, c2, c3⟩
  · exact Or.inl hc
  · refine Or.inr ⟨c1, ?_, c3⟩
    rw [ho a (by simp [c3]), c2]

theorem utf8_zero {str : String} (h : str.utf8ByteSize = 0) : str = "" := by
  simpa using h

theorem readText_sat {h : Heap} {b off : Nat} {str : String} {own : List Nat} (ht : TextAt h b off str own)
    (hd : 8 ∣ off) : Sat (readText b off) h fun x h' => x = str ∧ h' = h.drop own := by
  obtain ⟨a, cap, n1, n2, n3, hc⟩ := ht
  unfold readText
  refine Sat.bind (load_sat n1 hd ?_)
  refine Sat.bind (load_sat n2 (by omega) ?_)
  refine Sat.bind (load_sat n3 (by omega) ?_)
  unfold Sat takeText
  rcases hc with ⟨c1, c2, c3⟩ | ⟨c1, c2, c3⟩
  · subst c1 c2 c3
    simp [drop_nil]
  · subst c3
    simp only [if_neg c1, c2, and_self, if_true]
    exact ⟨trivial, set_none h a⟩

theorem writeText_sat {k : Machine} (hk : k.Ok) {h : Heap} {b off size : Nat} {bs : Nat → Option Nat} {str : String}
    (hl : str.utf8ByteSize < 2 ^ 63)
    (hb : h b = some (.buffer size bs)) (hsz : off + 24 ≤ size) (hd : 8 ∣ off) :
    Sat (writeText k b off str) h fun _ h' => ∃ own, TextAt h' b off str own ∧ Grew h h' b off (off + 24) own := by
  have hcap := hk.cap h str hl
  unfold writeText
  -- the three numbers, from any heap that differs in the new block
  have body : ∀ (a cap : Nat) (h1 : Heap), a < 2 ^ 64 → cap < 2 ^ 63 → h1 b = some (.buffer size bs) →
      Sat (do
        store .rust b off 8 a
        store .rust b (off + 8) 8 str.utf8ByteSize
        store .rust b (off + 16) 8 cap) h1 fun _ h' =>
          NumAt h' b off 8 a ∧ NumAt h' b (off + 8) 8 str.utf8ByteSize ∧ NumAt h' b (off + 16) 8 cap ∧
          Grew h1 h' b off (off + 24) [] := by
    intro a cap h1 ha hc hb1
    refine Sat.bind ((store_sat (by omega) hb1 (by omega) hd).imp ?_)
    intro _ h2 ⟨n1, g1⟩
    obtain ⟨bs2, hb2⟩ := g1.size hb1
    refine Sat.bind ((store_sat (by omega) hb2 (by omega) (by omega)).imp ?_)
    intro _ h3 ⟨n2, g2⟩
    obtain ⟨bs3, hb3⟩ := g2.size hb2
    refine (store_sat (by omega) hb3 (by omega) (by omega)).imp ?_
    intro _ h4 ⟨n3, g3⟩
    have w1 := g1.mono (lo' := off) (hi' := off + 24) (by omega) (by omega)
    have w2 := g2.mono (lo' := off) (hi' := off + 24) (by omega) (by omega)
    have w3 := g3.mono (lo' := off) (hi' := off + 24) (by omega) (by omega)
    have w := ((w1.trans w2).1.trans w3).1
    exact ⟨(n1.congr (g2.same (by omega))).congr (g3.same (by omega)), n2.congr (g3.same (by omega)), n3, by simpa using w⟩
  refine Sat.bind ?_
  unfold newText
  simp only
  by_cases hz : k.strCap h str = 0
  · have he : str = "" := utf8_zero (by omega)
    simp only [Sat, hz, if_true]
    refine (body 1 0 h (by omega) (by omega) hb).imp ?_
    intro _ h' ⟨n1, n2, n3, g⟩
    exact ⟨[], ⟨1, 0, n1, n2, n3, Or.inl ⟨rfl, he, rfl⟩⟩, g⟩
  · cases ha : k.newAddr h with
    | none => simp only [Sat, hz, if_false, ha]
    | some a =>
      obtain ⟨f1, f2, f3⟩ := hk.fresh h a ha
      have hab : a ≠ b := by
        intro e
        rw [e, hb] at f1
        exact nomatch f1
      have hb1 : (h.set a (some (.text str (k.strCap h str)))) b = some (.buffer size bs) := by
        simp [Heap.set, Ne.symm hab, hb]
      have := (body a (k.strCap h str) _ f3 hcap.2 hb1).imp (Q' := fun _ h' =>
        ∃ own, TextAt h' b off str own ∧ Grew h h' b off (off + 24) own) ?_
      · simpa only [Sat, hz, if_false, ha] using this
      · intro _ h' ⟨n1, n2, n3, g⟩
        refine ⟨[a], ⟨a, k.strCap h str, n1, n2, n3, Or.inr ⟨hz, ?_, rfl⟩⟩, ?_, ?_, ?_⟩
        · rw [g.rest a hab (by simp)]
          simp [Heap.set]
        · simp [f1]
        · intro x hx hxa
          rw [g.rest x hx (by simp)]
          simp only [List.mem_singleton] at hxa
          simp [Heap.set, hxa]
        · obtain ⟨s1, b1, b2, e1, e2, e3⟩ := g.bytes
          rw [hb1] at e1
          cases e1
          exact ⟨size, bs, b2, hb, e2, e3⟩

end Verif.Jni
