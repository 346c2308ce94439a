import Verif.Buffer.Model
/-
Lemmas about buffers and the heap.
-/
namespace Verif.Buffer
open Verif

/-- The allocation a buffer owns. -/
def RustBuffer.owned (b : RustBuffer) : Option Nat :=
  match b.data with
  | .at id => some id
  | _ => none

/-- A buffer that describes a live allocation (or the empty vector). -/
def Good (h : Heap) (b : RustBuffer) : Prop :=
  (b.data = .dangling ∧ b.capacity = 0 ∧ b.len = 0) ∨
  ∃ id bs, b.data = .at id ∧ h.cells[id]? = some (some bs) ∧ bs.length = b.capacity ∧
    b.len ≤ b.capacity ∧ 0 < b.capacity

structure Inv (h : Heap) (held : List RustBuffer) : Prop where
  good : ∀ b ∈ held, Good h b
  nodup : (held.filterMap RustBuffer.owned).Nodup
  cover : ∀ id bs, h.cells[id]? = some (some bs) → id ∈ held.filterMap RustBuffer.owned
  rel : ∀ id, id ∈ h.released ↔ h.cells[id]? = some none
  relnd : h.released.Nodup

theorem Inv.perm {h : Heap} {l l' : List RustBuffer} (hp : l.Perm l') (hi : Inv h l) : Inv h l' where
  good b hb := hi.good b (hp.mem_iff.2 hb)
  nodup := (hp.filterMap _).nodup_iff.1 hi.nodup
  cover id bs hc := (hp.filterMap _).mem_iff.1 (hi.cover id bs hc)
  rel := hi.rel
  relnd := hi.relnd

theorem inv_init : Inv {} [] where
  good b hb := by cases hb
  nodup := by simp
  cover id bs h := by simp at h
  rel id := by simp
  relnd := by simp

theorem perm_eraseIdx {l : List RustBuffer} {i : Nat} {b : RustBuffer} (h : l[i]? = some b) :
    l.Perm (b :: l.eraseIdx i) := by
  induction l generalizing i with
  | nil => simp at h
  | cons x l ih =>
    cases i with
    | zero => simp at h; subst h; simp
    | succ i =>
      simp only [List.getElem?_cons_succ] at h
      simp only [List.eraseIdx_cons_succ]
      exact ((ih h).cons x).trans (List.Perm.swap b x _)

/-! ### Making a buffer -/

theorem get_alloc_old {h : Heap} {bs : Bytes} {id : Nat} {c : Bytes}
    (hc : h.cells[id]? = some (some c)) : (h.alloc bs).1.cells[id]? = some (some c) := by
  unfold Heap.alloc
  split
  · exact hc
  · have hlt : id < h.cells.length := (List.getElem?_eq_some_iff.1 hc).1
    simp [List.getElem?_append_left hlt, hc]

theorem vec_bytes (h : Heap) (bs spare : Bytes) :
    (RustBuffer.fromVec (h.vec bs spare).2).bytes (h.vec bs spare).1 = bs ∧
    (h.vec bs spare).2.contents (h.vec bs spare).1 = bs := by
  unfold Heap.vec Heap.alloc RustBuffer.fromVec RustBuffer.bytes RVec.contents
  by_cases he : bs ++ spare = []
  · simp only [he, if_true, Heap.get]
    simp at he; simp [he.1]
  · simp only [he, if_false, Heap.get]
    simp

theorem good_vec (h : Heap) (bs spare : Bytes) :
    Good (h.vec bs spare).1 (.fromVec (h.vec bs spare).2) := by
  unfold Heap.vec Heap.alloc RustBuffer.fromVec
  by_cases he : bs ++ spare = []
  · simp only [he, if_true]
    left; simp at he; simp [he.1]
  · simp only [he, if_false]
    right
    refine ⟨h.cells.length, bs ++ spare, rfl, ?_, rfl, ?_, ?_⟩
    · simp
    · simp
    · exact List.length_pos_iff.2 he

theorem good_mono_alloc {h : Heap} {bs : Bytes} {b : RustBuffer} (hb : Good h b) :
    Good (h.alloc bs).1 b := by
  rcases hb with hb | ⟨id, c, h1, h2, h3⟩
  · exact .inl hb
  · exact .inr ⟨id, c, h1, get_alloc_old h2, h3⟩

theorem inv_vec {h : Heap} {held : List RustBuffer} (hi : Inv h held) (bs spare : Bytes) :
    Inv (h.vec bs spare).1 (.fromVec (h.vec bs spare).2 :: held) where
  good b hb := by
    rcases List.mem_cons.1 hb with rfl | hb
    · exact good_vec h bs spare
    · exact good_mono_alloc (hi.good b hb)
  nodup := by
    unfold Heap.vec Heap.alloc RustBuffer.fromVec
    by_cases he : bs ++ spare = []
    · simp only [he, if_true]
      rw [List.filterMap_cons_none (by simp [RustBuffer.owned])]
      exact hi.nodup
    · simp only [he, if_false]
      rw [List.filterMap_cons_some (b := h.cells.length) (by simp [RustBuffer.owned])]
      refine List.nodup_cons.2 ⟨?_, hi.nodup⟩
      intro hm
      obtain ⟨b, hb, ho⟩ := List.mem_filterMap.1 hm
      rcases hi.good b hb with hg | ⟨id, c, h1, h2, h3⟩
      · simp [RustBuffer.owned, hg.1] at ho
      · simp [RustBuffer.owned, h1] at ho
        subst ho
        simp at h2
  cover id c hc := by
    unfold Heap.vec Heap.alloc RustBuffer.fromVec at *
    by_cases he : bs ++ spare = []
    · simp only [he, if_true] at hc ⊢
      rw [List.filterMap_cons_none (by simp [RustBuffer.owned])]
      exact hi.cover id c hc
    · simp only [he, if_false] at hc ⊢
      rw [List.filterMap_cons_some (b := h.cells.length) (by simp [RustBuffer.owned])]
      by_cases hlt : id < h.cells.length
      · rw [List.getElem?_append_left hlt] at hc
        exact List.mem_cons_of_mem _ (hi.cover id c hc)
      · have hl := (List.getElem?_eq_some_iff.1 hc).1
        simp at hl
        have : id = h.cells.length := by omega
        rw [this]; exact List.mem_cons_self
  rel id := by
    unfold Heap.vec Heap.alloc
    by_cases he : bs ++ spare = []
    · simp only [he, if_true]; exact hi.rel id
    · simp only [he, if_false]
      rw [hi.rel id]
      by_cases hlt : id < h.cells.length
      · rw [List.getElem?_append_left hlt]
      · rw [List.getElem?_eq_none (by omega), List.getElem?_append_right (by omega)]
        constructor
        · intro hx; cases hx
        · intro hx
          by_cases h0 : id - h.cells.length = 0
          · simp [h0] at hx
          · rw [List.getElem?_eq_none (by simp only [List.length_singleton]; omega)] at hx
            cases hx
  relnd := by
    unfold Heap.vec Heap.alloc
    split <;> exact hi.relnd

/-! ### Giving a buffer back -/

theorem destroyIntoVec_good {h : Heap} {b : RustBuffer} (hb : Good h b) :
    b.destroyIntoVec h = .ok h { ptr := b.data, len := b.len, cap := b.capacity } := by
  unfold RustBuffer.destroyIntoVec Heap.fromRawParts
  rcases hb with ⟨h1, h2, h3⟩ | ⟨id, c, h1, h2, h3, h4, h5⟩
  · simp [h1, h2, h3]
  · have : b.capacity ≠ 0 := by omega
    simp [h1, h4, this, Heap.get, h2, h3]

/-- The heap after the buffer's allocation, if any, is released. -/
def Heap.releaseOf (h : Heap) (b : RustBuffer) : Heap :=
  match b.data with
  | .at id => h.release id
  | _ => h

theorem drop_good {h : Heap} {b : RustBuffer} (hb : Good h b) :
    RVec.drop h { ptr := b.data, len := b.len, cap := b.capacity } = .ok (h.releaseOf b) () := by
  unfold RVec.drop Heap.releaseOf
  rcases hb with ⟨h1, h2, h3⟩ | ⟨id, c, h1, h2, h3, h4, h5⟩
  · simp [h1, h2]
  · have : b.capacity ≠ 0 := by omega
    simp [h1, this, Heap.get, h2]

theorem destroy_good {h : Heap} {b : RustBuffer} (hb : Good h b) :
    b.destroy h = .ok (h.releaseOf b) () := by
  simp only [RustBuffer.destroy, destroyIntoVec_good hb, Out.bind]
  exact drop_good hb

theorem inv_releaseOf {h : Heap} {b : RustBuffer} {held : List RustBuffer}
    (hi : Inv h (b :: held)) : Inv (h.releaseOf b) held := by
  have hb := hi.good b List.mem_cons_self
  rcases hb with ⟨h1, h2, h3⟩ | ⟨id, c, h1, h2, h3, h4, h5⟩
  · have ho : b.owned = none := by simp [RustBuffer.owned, h1]
    have hn := hi.nodup
    have hc := hi.cover
    rw [List.filterMap_cons_none ho] at hn
    simp only [List.filterMap_cons_none ho] at hc
    simp only [Heap.releaseOf, h1]
    exact ⟨fun b' hb' => hi.good b' (List.mem_cons_of_mem _ hb'), hn, hc, hi.rel, hi.relnd⟩
  · have ho : b.owned = some id := by simp [RustBuffer.owned, h1]
    have hn := hi.nodup
    have hc := hi.cover
    rw [List.filterMap_cons_some ho] at hn
    simp only [List.filterMap_cons_some ho] at hc
    obtain ⟨hn1, hn2⟩ := List.nodup_cons.1 hn
    simp only [Heap.releaseOf, h1, Heap.release]
    have hlt : id < h.cells.length := (List.getElem?_eq_some_iff.1 h2).1
    refine ⟨?_, hn2, ?_, ?_, ?_⟩
    · intro b' hb'
      rcases hi.good b' (List.mem_cons_of_mem _ hb') with hg | ⟨id', c', g1, g2, g3⟩
      · exact .inl hg
      · refine .inr ⟨id', c', g1, ?_, g3⟩
        have hne : id ≠ id' := by
          intro e; subst e
          exact hn1 (List.mem_filterMap.2 ⟨b', hb', by simp [RustBuffer.owned, g1]⟩)
        simp [List.getElem?_set_ne hne, g2]
    · intro id' c' hc'
      by_cases he : id = id'
      · subst he; simp [hlt] at hc'
      · simp only [List.getElem?_set_ne he] at hc'
        rcases List.mem_cons.1 (hc id' c' hc') with e | e
        · exact absurd e.symm he
        · exact e
    · intro id'
      by_cases he : id = id'
      · subst he; simp [hlt]
      · simp only [List.getElem?_set_ne he, List.mem_cons, hi.rel id']
        constructor
        · rintro (e | e)
          · exact absurd e.symm he
          · exact e
        · exact .inr
    · refine List.nodup_cons.2 ⟨?_, hi.relnd⟩
      intro hm
      rw [hi.rel id, h2] at hm
      cases hm

/-! ### Reserving and writing -/

theorem reserve_good (a : Alloc) {h : Heap} {b : RustBuffer} (hb : Good h b) (n : Nat)
    (hn : b.len + n ≤ isizeMax) :
    (n ≤ b.capacity - b.len ∧ ffiReserve a h b n = some (h, b, true)) ∨
    ∃ spare : Bytes, n ≤ spare.length ∧ ffiReserve a h b n =
      some (((h.releaseOf b).vec (b.bytes h) spare).1,
        .fromVec ((h.releaseOf b).vec (b.bytes h) spare).2, true) := by
  unfold ffiReserve
  rw [destroyIntoVec_good hb]
  simp only [Out.bind, RVec.reserve]
  by_cases h1 : n ≤ b.capacity - b.len
  · left
    refine ⟨h1, ?_⟩
    rw [if_pos h1]
    rfl
  · right
    rw [if_neg h1, if_neg (by omega), drop_good hb]
    refine ⟨(List.range (a.grow b.capacity (b.len + n) - b.len)).map a.junk, ?_, ?_⟩
    · simp; have := a.le_grow b.capacity (b.len + n); omega
    · rfl

theorem bytes_length {h : Heap} {b : RustBuffer} (hb : Good h b) : (b.bytes h).length = b.len := by
  rcases hb with ⟨h1, h2, h3⟩ | ⟨id, c, h1, h2, h3, h4, h5⟩
  · simp [RustBuffer.bytes, h1, Heap.get, h3]
  · simp [RustBuffer.bytes, h1, Heap.get, h2]; omega

theorem memmove_good {h : Heap} {b : RustBuffer} (hb : Good h b) (off : Nat) (bs : Bytes)
    (hoff : off + bs.length ≤ b.capacity) :
    memmove h b.data off bs = some h ∧ bs = [] ∨
    ∃ id old, b.data = .at id ∧ h.cells[id]? = some (some old) ∧ old.length = b.capacity ∧
      memmove h b.data off bs =
        some (h.put id (old.take off ++ bs ++ old.drop (off + bs.length))) := by
  unfold memmove
  by_cases he : bs = []
  · simp [he]
  · have hp : 0 < bs.length := List.length_pos_iff.2 he
    rcases hb with ⟨h1, h2, h3⟩ | ⟨id, c, h1, h2, h3, h4, h5⟩
    · omega
    · right
      refine ⟨id, c, h1, h2, h3, ?_⟩
      rw [if_neg he]
      simp only [h1, Heap.get, h2, Option.join_some]
      rw [if_pos (by omega)]

theorem put_get {h : Heap} {id : Nat} {old new : Bytes} (hc : h.cells[id]? = some (some old)) :
    (h.put id new).cells[id]? = some (some new) := by
  have hlt : id < h.cells.length := (List.getElem?_eq_some_iff.1 hc).1
  simp [Heap.put, hlt]

theorem inv_put {h : Heap} {b : RustBuffer} {held : List RustBuffer} {id : Nat} {old new : Bytes}
    (hi : Inv h (b :: held)) (hd : b.data = .at id) (hc : h.cells[id]? = some (some old))
    (hl : new.length = old.length) (len : Nat) (hlen : len ≤ b.capacity) :
    Inv (h.put id new) ({ b with len := len } :: held) := by
  have hlt : id < h.cells.length := (List.getElem?_eq_some_iff.1 hc).1
  have ho : ({ b with len := len } : RustBuffer).owned = some id := by simp [RustBuffer.owned, hd]
  have ho' : b.owned = some id := by simp [RustBuffer.owned, hd]
  have hn := hi.nodup
  have hcv := hi.cover
  rw [List.filterMap_cons_some ho'] at hn
  simp only [List.filterMap_cons_some ho'] at hcv
  refine ⟨?_, ?_, ?_, ?_, hi.relnd⟩
  · intro b' hb'
    rcases List.mem_cons.1 hb' with rfl | hb'
    · rcases hi.good b List.mem_cons_self with ⟨h1, _⟩ | ⟨id2, c, h1, h2, h3, h4, h5⟩
      · rw [hd] at h1; cases h1
      · rw [hd] at h1; cases h1
        rw [hc] at h2; cases h2
        exact .inr ⟨id, new, hd, put_get hc, by simp only; omega, hlen, h5⟩
    · rcases hi.good b' (List.mem_cons_of_mem _ hb') with hg | ⟨id', c', g1, g2, g3⟩
      · exact .inl hg
      · have hne : id ≠ id' := by
          intro e; subst e
          exact (List.nodup_cons.1 hn).1
            (List.mem_filterMap.2 ⟨b', hb', by simp [RustBuffer.owned, g1]⟩)
        exact .inr ⟨id', c', g1, by simp [Heap.put, List.getElem?_set_ne hne, g2], g3⟩
  · rw [List.filterMap_cons_some ho]; exact hn
  · intro id' c' hc'
    rw [List.filterMap_cons_some ho]
    by_cases he : id = id'
    · subst he; exact List.mem_cons_self
    · simp only [Heap.put, List.getElem?_set_ne he] at hc'
      exact hcv id' c' hc'
  · intro id'
    simp only [Heap.put]
    by_cases he : id = id'
    · subst he
      rw [hi.rel id, hc]
      simp [hlt]
    · rw [List.getElem?_set_ne he]; exact hi.rel id'

theorem inv_setLen {h : Heap} {b : RustBuffer} {held : List RustBuffer}
    (hi : Inv h (b :: held)) (len : Nat) (hlen : len ≤ b.capacity) :
    Inv h ({ b with len := len } :: held) := by
  have ho : ({ b with len := len } : RustBuffer).owned = b.owned := rfl
  refine ⟨?_, ?_, ?_, hi.rel, hi.relnd⟩
  · intro b' hb'
    rcases List.mem_cons.1 hb' with rfl | hb'
    · rcases hi.good b List.mem_cons_self with ⟨h1, h2, h3⟩ | ⟨id2, c, h1, h2, h3, h4, h5⟩
      · exact .inl ⟨h1, h2, by simp only; omega⟩
      · exact .inr ⟨id2, c, h1, h2, h3, hlen, h5⟩
    · exact hi.good b' (List.mem_cons_of_mem _ hb')
  · have := hi.nodup
    simp only [List.filterMap_cons, ho] at this ⊢; exact this
  · have := hi.cover
    simp only [List.filterMap_cons, ho] at this ⊢; exact this

/-- Every step of a history keeps the invariant and is defined. -/
theorem step_inv (a : Alloc) (w : World) (op : Op) (hi : Inv w.heap w.held) :
    ∃ w', w.step a op = some w' ∧ Inv w'.heap w'.held := by
  cases op with
  | alloc size =>
    simp only [World.step, ffiAlloc, RustBuffer.newWithSize]
    split
    · exact ⟨_, rfl, hi⟩
    · exact ⟨_, rfl, inv_vec hi _ _⟩
  | fromBytes bs =>
    simp only [World.step, ffiFromBytes, ForeignBytes.asSlice]
    rw [if_neg (by omega), if_pos (by simp)]
    exact ⟨_, rfl, inv_vec hi _ _⟩
  | fromRust bs spare => exact ⟨_, rfl, inv_vec hi _ _⟩
  | free i =>
    simp only [World.step]
    split
    · exact ⟨_, rfl, hi⟩
    · rename_i b hb
      have hp := hi.perm (perm_eraseIdx hb)
      rw [ffiFree, destroy_good (hp.good b List.mem_cons_self)]
      exact ⟨_, rfl, inv_releaseOf hp⟩
  | toRust i =>
    simp only [World.step]
    split
    · exact ⟨_, rfl, hi⟩
    · rename_i b hb
      have hp := hi.perm (perm_eraseIdx hb)
      rw [destroy_good (hp.good b List.mem_cons_self)]
      exact ⟨_, rfl, inv_releaseOf hp⟩
  | reserve i n =>
    simp only [World.step]
    split
    · exact ⟨_, rfl, hi⟩
    · rename_i b hb
      have hp := hi.perm (perm_eraseIdx hb)
      have hg := hp.good b List.mem_cons_self
      by_cases hn : b.len + n ≤ isizeMax
      · rcases reserve_good a hg n hn with ⟨_, e⟩ | ⟨spare, _, e⟩
        · rw [e]; exact ⟨_, rfl, hp⟩
        · rw [e]; exact ⟨_, rfl, inv_vec (inv_releaseOf hp) _ _⟩
      · unfold ffiReserve
        rw [destroyIntoVec_good hg]
        simp only [Out.bind, RVec.reserve]
        by_cases h1 : n ≤ b.capacity - b.len
        · rw [if_pos h1]; exact ⟨_, rfl, hp⟩
        · rw [if_neg h1, if_pos (by omega), drop_good hg]
          exact ⟨_, rfl, inv_releaseOf hp⟩
  | fill i off bs len =>
    simp only [World.step]
    split
    · exact ⟨_, rfl, hi⟩
    · rename_i b hb
      have hp := hi.perm (perm_eraseIdx hb)
      have hg := hp.good b List.mem_cons_self
      split
      · rename_i hle
        rcases memmove_good hg off bs hle.1 with ⟨e, _⟩ | ⟨id, old, g1, g2, g3, e⟩
        · rw [e]; exact ⟨_, rfl, inv_setLen hp len hle.2⟩
        · rw [e]
          refine ⟨_, rfl, inv_put hp g1 g2 ?_ len hle.2⟩
          simp; omega
      · exact ⟨_, rfl, hi⟩

theorem run_inv (a : Alloc) : ∀ (ops : List Op) (w : World), Inv w.heap w.held →
    ∃ w', w.run a ops = some w' ∧ Inv w'.heap w'.held
  | [], w, hi => ⟨w, rfl, hi⟩
  | op :: ops, w, hi => by
    obtain ⟨w1, h1, hi1⟩ := step_inv a w op hi
    obtain ⟨w2, h2, hi2⟩ := run_inv a ops w1 hi1
    exact ⟨w2, by simp [World.run, h1, h2], hi2⟩

end Verif.Buffer
