import Verif.Buffer.Lemmas
/-
Lemmas about the foreign buffer builders.
-/
namespace Verif.Buffer
open Verif

theorem good_len {h : Heap} {b : RustBuffer} (hb : Good h b) : b.len ≤ b.capacity := by
  rcases hb with ⟨_, h2, h3⟩ | ⟨id, c, _, _, _, h4, _⟩ <;> omega

/-- No buffer in the list changed its contents. -/
def Frame (held : List RustBuffer) (h h' : Heap) : Prop :=
  ∀ b ∈ held, b.bytes h' = b.bytes h

theorem Frame.trans {held : List RustBuffer} {h h' h'' : Heap} (h1 : Frame held h h')
    (h2 : Frame held h' h'') : Frame held h h'' := fun b hb => (h2 b hb).trans (h1 b hb)

theorem Frame.refl (held : List RustBuffer) (h : Heap) : Frame held h h := fun _ _ => rfl

theorem bytes_congr {h h' : Heap} {b : RustBuffer} (hb : Good h b)
    (hc : ∀ id bs, b.data = .at id → h.cells[id]? = some (some bs) → h'.cells[id]? = some (some bs)) :
    b.bytes h' = b.bytes h := by
  rcases hb with ⟨h1, _⟩ | ⟨id, c, h1, h2, _⟩
  · simp [RustBuffer.bytes, h1, Heap.get]
  · simp [RustBuffer.bytes, h1, Heap.get, h2, hc id c h1 h2]

theorem frame_vec {h : Heap} {held : List RustBuffer} (hi : Inv h held) (bs spare : Bytes) :
    Frame held h (h.vec bs spare).1 := fun b hb =>
  bytes_congr (hi.good b hb) fun _ _ _ hc => get_alloc_old hc

theorem inv_ne {h : Heap} {b b' : RustBuffer} {held : List RustBuffer} (hi : Inv h (b :: held))
    (hb' : b' ∈ held) {id id' : Nat} (h1 : b.data = .at id) (h2 : b'.data = .at id') : id ≠ id' := by
  have hn := hi.nodup
  rw [List.filterMap_cons_some (b := id) (by simp [RustBuffer.owned, h1])] at hn
  intro e; subst e
  exact (List.nodup_cons.1 hn).1 (List.mem_filterMap.2 ⟨b', hb', by simp [RustBuffer.owned, h2]⟩)

theorem frame_releaseOf {h : Heap} {b : RustBuffer} {held : List RustBuffer}
    (hi : Inv h (b :: held)) : Frame held h (h.releaseOf b) := by
  intro b' hb'
  refine bytes_congr (hi.good b' (List.mem_cons_of_mem _ hb')) ?_
  intro id' bs hd hc
  cases hdb : b.data with
  | «at» id =>
    have hne := inv_ne hi hb' hdb hd
    simp [Heap.releaseOf, hdb, Heap.release, List.getElem?_set_ne hne, hc]
  | null => simpa [Heap.releaseOf, hdb] using hc
  | dangling => simpa [Heap.releaseOf, hdb] using hc

theorem frame_put {h : Heap} {b : RustBuffer} {held : List RustBuffer} (hi : Inv h (b :: held))
    {id : Nat} (hd : b.data = .at id) (new : Bytes) : Frame held h (h.put id new) := by
  intro b' hb'
  refine bytes_congr (hi.good b' (List.mem_cons_of_mem _ hb')) ?_
  intro id' bs hd' hc
  have hne := inv_ne hi hb' hd hd'
  simp [Heap.put, List.getElem?_set_ne hne, hc]

theorem store_spec {h : Heap} {b : RustBuffer} {held : List RustBuffer} (hi : Inv h (b :: held))
    (bs : Bytes) (hr : b.len + bs.length ≤ b.capacity) :
    ∃ h' b', builderWrite.store bs h b = .ok h' b' ∧ Inv h' (b' :: held) ∧
      b'.bytes h' = b.bytes h ++ bs ∧ b'.len = b.len + bs.length ∧ Frame held h h' := by
  have hg := hi.good b List.mem_cons_self
  unfold builderWrite.store
  rcases memmove_good hg b.len bs hr with ⟨e, e2⟩ | ⟨id, old, g1, g2, g3, e⟩
  · rw [e]
    subst e2
    exact ⟨h, _, rfl, inv_setLen hi _ hr, by simp [RustBuffer.bytes], rfl, Frame.refl _ _⟩
  · rw [e]
    refine ⟨_, _, rfl, inv_put hi g1 g2 (by simp; omega) _ hr, ?_, rfl, frame_put hi g1 _⟩
    simp only [RustBuffer.bytes, g1, Heap.get, put_get g2, g2, Option.join_some]
    rw [List.append_assoc, List.take_append, List.take_take]
    have hl : (old.take b.len).length = b.len := by simp; omega
    rw [hl, Nat.min_eq_right (by omega)]
    congr 1
    rw [show b.len + bs.length - b.len = bs.length by omega]
    simp

theorem write_spec (a : Alloc) {h : Heap} {b : RustBuffer} {held : List RustBuffer}
    (hi : Inv h (b :: held)) (bs : Bytes) (hr : b.len + bs.length ≤ isizeMax) :
    ∃ h' b', builderWrite a h b bs = .ok h' b' ∧ Inv h' (b' :: held) ∧
      b'.bytes h' = b.bytes h ++ bs ∧ b'.len = b.len + bs.length ∧ Frame held h h' := by
  have hg := hi.good b List.mem_cons_self
  unfold builderWrite
  by_cases hc : b.len + bs.length > b.capacity
  · rw [if_pos hc]
    rcases reserve_good a hg bs.length hr with ⟨h1, e⟩ | ⟨spare, h1, e⟩
    · have := good_len hg
      omega
    · rw [e]
      have hi1 := inv_releaseOf hi
      have hi2 := inv_vec hi1 (b.bytes h) spare
      have hl : (RustBuffer.fromVec ((h.releaseOf b).vec (b.bytes h) spare).2).len = b.len := by
        simp [RustBuffer.fromVec, Heap.vec, bytes_length hg]
      have hcap : (RustBuffer.fromVec ((h.releaseOf b).vec (b.bytes h) spare).2).capacity
          = b.len + spare.length := by
        simp [RustBuffer.fromVec, Heap.vec, bytes_length hg]
      obtain ⟨h', b', e', i', c', l', f'⟩ := store_spec hi2 bs (by omega)
      refine ⟨h', b', e', i', ?_, by omega, ?_⟩
      · rw [c', (vec_bytes _ _ _).1]
      · exact (frame_releaseOf hi).trans ((frame_vec hi1 _ _).trans f')
  · rw [if_neg hc]
    exact store_spec hi bs (by omega)

theorem go_spec (a : Alloc) {held : List RustBuffer} : ∀ (chunks : List Bytes) (h : Heap)
    (b : RustBuffer), Inv h (b :: held) → b.len + chunks.flatten.length ≤ isizeMax →
    ∃ h' b', build.go a h b chunks = .ok h' b' ∧ Inv h' (b' :: held) ∧
      b'.bytes h' = b.bytes h ++ chunks.flatten ∧ Frame held h h'
  | [], h, b, hi, _ => ⟨h, b, rfl, hi, by simp, Frame.refl _ _⟩
  | c :: cs, h, b, hi, hl => by
    simp only [List.flatten_cons, List.length_append] at hl
    obtain ⟨h1, b1, e1, i1, c1, l1, f1⟩ := write_spec a hi c (by omega)
    obtain ⟨h2, b2, e2, i2, c2, f2⟩ := go_spec a cs h1 b1 i1 (by omega)
    refine ⟨h2, b2, ?_, i2, ?_, f1.trans f2⟩
    · rw [build.go, e1]; exact e2
    · rw [c2, c1]; simp

theorem build_spec (a : Alloc) {h : Heap} {held : List RustBuffer} (hi : Inv h held)
    (chunks : List Bytes) (hl : chunks.flatten.length ≤ isizeMax) :
    ∃ h' b', build a h chunks = .ok h' b' ∧ Inv h' (b' :: held) ∧
      b'.bytes h' = chunks.flatten ∧ Frame held h h' := by
  have hi1 := inv_setLen (inv_vec hi (List.replicate 16 0) []) 0 (Nat.zero_le _)
  have e : builderNew h = .ok (h.vec (List.replicate 16 0) []).1
      { RustBuffer.fromVec (h.vec (List.replicate 16 0) []).2 with len := 0 } := by
    have h16 : ¬ isizeMax < 16 := by decide
    simp only [builderNew, ffiAlloc, RustBuffer.newWithSize, if_neg h16, rustCall]
  obtain ⟨h', b', e1, i1, c1, f1⟩ := go_spec a chunks _ _ hi1 (by simpa using hl)
  refine ⟨h', b', ?_, i1, ?_, (frame_vec hi _ _).trans f1⟩
  · unfold build; rw [e]; exact e1
  · rw [c1]
    have := bytes_length (hi1.good _ List.mem_cons_self)
    rw [List.eq_nil_of_length_eq_zero this]; rfl

end Verif.Buffer
