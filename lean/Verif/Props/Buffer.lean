import Verif.Buffer.Kotlin
import Verif.Props.Foreign
/-
C16-C19 and C51: buffers.
-/
namespace Verif.Props.Buffer
open Verif Verif.Wire Verif.Buffer Verif.Props.Wire Verif.Props.Foreign

/-- A world some history of buffer calls leads to, starting from nothing. -/
def Reachable (a : Alloc) (w : World) : Prop := ∃ ops, World.run a {} ops = some w

theorem Reachable.inv {a : Alloc} {w : World} (h : Reachable a w) : Inv w.heap w.held := by
  obtain ⟨ops, h⟩ := h
  obtain ⟨w', h', hi⟩ := run_inv a ops {} inv_init
  rw [h] at h'; cases h'; exact hi

/-- A small history: three buffers made, one grown, one filled, one freed. -/
def demoOps : List Op :=
  [.alloc 4, .fromBytes [1, 2, 3], .reserve 1 100, .fromRust [9] [0, 0], .fill 0 1 [7, 7] 3, .free 1]

example : ∃ w, World.run stdAlloc {} demoOps = some w ∧ w.held.length = 2 ∧ w.heap.cells.length = 4 :=
  ⟨_, rfl, by decide +kernel, by decide +kernel⟩

/-! ### C16 -/

/-- C16. The size Kotlin computes is enough for what it then writes, for every type and value. -/
theorem C16_allocation_size (lossy : Bytes → String) (env : Env) (fuel : Nat) (t : Ty) (p : Val)
    (bs : Bytes) (h : fwrite (Kotlin.lang lossy) env fuel t p = some bs) :
    bs.length ≤ Buffer.Kotlin.allocationSize env fuel t p :=
  Buffer.Kotlin.fwrite_length lossy env fuel t p bs h

/-- C16. Three bytes per UTF-16 unit always cover the UTF-8 form. -/
theorem C16_utf16_bound (s : String) :
    s.utf8ByteSize ≤ 3 * (s.toList.map fun c => if c.toNat < 0x10000 then 1 else 2).sum := by
  have := Buffer.Kotlin.utf8_length_le s
  rw [length_utf8] at this
  unfold Buffer.Kotlin.utf16Units at this
  omega

/-- C16. So lowering into a buffer never overruns it, and the buffer holds exactly what was
written; the other buffers are untouched. -/
theorem C16_lower_into_rust_buffer (a : Alloc) (w : World) (hw : Reachable a w)
    (lossy : Bytes → String) (env : Env) (fuel : Nat) (t : Ty) (p : Val) (bs : Bytes)
    (h : fwrite (Kotlin.lang lossy) env fuel t p = some bs)
    (hs : Buffer.Kotlin.allocationSize env fuel t p ≤ isizeMax) :
    ∃ heap b, Buffer.Kotlin.lowerInto w.heap (Buffer.Kotlin.allocationSize env fuel t p)
        (fwrite (Kotlin.lang lossy) env fuel t p) = some (heap, some b) ∧
      b.bytes heap = bs ∧ ∀ b' ∈ w.held, b'.bytes heap = b'.bytes w.heap := by
  obtain ⟨h', b, h1, _, h2, h3⟩ := Buffer.Kotlin.lowerInto_spec hw.inv _ bs hs
    (C16_allocation_size lossy env fuel t p bs h)
  exact ⟨h', b, by rw [h, h1], h2, h3⟩

/-- C16. When writing fails - the converter throws, or would run past the end - the buffer that was
allocated is freed again: the live allocations are still exactly those of the buffers held. -/
theorem C16_failure_frees (a : Alloc) (w : World) (hw : Reachable a w) (size : Nat)
    (written : Option Bytes) (hf : ∀ bs, written = some bs → size < bs.length) :
    ∃ heap, Buffer.Kotlin.lowerInto w.heap size written = some (heap, none) ∧
      heap.released.Nodup ∧
      ∀ id, (∃ bs, heap.cells[id]? = some (some bs)) ↔ ∃ b ∈ w.held, b.data = .at id := by
  obtain ⟨heap, h, hi⟩ := Buffer.Kotlin.lowerInto_throws hw.inv size written hf
  refine ⟨heap, h, hi.relnd, fun id => ?_⟩
  constructor
  · rintro ⟨bs, hc⟩
    obtain ⟨b, hb, ho⟩ := List.mem_filterMap.1 (hi.cover id bs hc)
    refine ⟨b, hb, ?_⟩
    unfold RustBuffer.owned at ho
    split at ho <;> cases ho
    assumption
  · rintro ⟨b, hb, hd⟩
    rcases hi.good b hb with ⟨h1, _⟩ | ⟨id', bs, h1, h2, _⟩
    · rw [hd] at h1; cases h1
    · rw [hd] at h1; cases h1; exact ⟨bs, h2⟩

/-- A writer that throws, one that writes too much: one allocation made and released. -/
example : (Buffer.Kotlin.lowerInto {} 4 none).map (fun r => (r.1.released, r.2)) = some ([0], none) ∧
    (Buffer.Kotlin.lowerInto {} 1 (some [1, 2])).map (fun r => (r.1.released, r.2)) =
      some ([0], none) := by decide +kernel

example :
    ((fwrite (Kotlin.lang fun _ => "") demoEnv 6 (.named "Tree")
      (repr (Kotlin.lang fun _ => "") demoTree)).map List.length) = some 28 ∧
    Buffer.Kotlin.allocationSize demoEnv 6 (.named "Tree")
      (repr (Kotlin.lang fun _ => "") demoTree) = 29 := by decide +kernel

/-- A character outside the basic plane takes four bytes and two UTF-16 units, one in the upper
basic plane takes three bytes and one unit: the bound is reached. -/
example : "€".utf8ByteSize = 3 ∧ Buffer.Kotlin.utf16Units "€" = 1 ∧
    "😀".utf8ByteSize = 4 ∧ Buffer.Kotlin.utf16Units "😀" = 2 := by decide +kernel

/-! ### C17 -/

/-- C17. Whatever is written through a Python or Ruby builder, in chunks of any sizes, the builder
never writes outside its allocation, and the finished buffer holds exactly the concatenation; the
other buffers are untouched. -/
theorem C17_builder (a : Alloc) (w : World) (hw : Reachable a w) (chunks : List Bytes)
    (hs : chunks.flatten.length ≤ isizeMax) :
    ∃ heap b, lower a w.heap chunks = some (heap, some b) ∧ b.bytes heap = chunks.flatten ∧
      b.len = chunks.flatten.length ∧ b.len ≤ b.capacity ∧
      ∀ b' ∈ w.held, b'.bytes heap = b'.bytes w.heap := by
  obtain ⟨h', b', e, i, c, f⟩ := build_spec a hw.inv chunks hs
  have hg := i.good b' List.mem_cons_self
  refine ⟨h', b', by simp [lower, e], c, ?_, good_len hg, f⟩
  rw [← c, bytes_length hg]

example : lower stdAlloc {} [List.replicate 10 1, List.replicate 10 2, [], [3]] =
    some ({ cells := [none, some (List.replicate 10 1 ++ List.replicate 10 2 ++ 3 :: List.replicate 11 0)],
            released := [0] },
      some { capacity := 32, len := 21, data := .at 1 }) := by decide +kernel

/-- C17, outside the claim: if growing the buffer fails in Rust (only above `isize::MAX` bytes), the
builder keeps its old buffer, which Rust has already released, and frees it again. -/
theorem C17_failed_reserve_double_free (a : Alloc) (bs : Bytes) (hb : isizeMax < bs.length) :
    lower a {} [bs] = none := by
  have h16 : ¬ isizeMax < 16 := by decide
  have hi1 := inv_setLen (inv_vec inv_init (List.replicate 16 0) []) 0 (Nat.zero_le _)
  have hbig : (16 : Nat) < isizeMax := by decide
  simp only [lower, build, builderNew, ffiAlloc, RustBuffer.newWithSize, if_neg h16, rustCall,
    build.go, builderWrite]
  have hcap : (RustBuffer.fromVec (Heap.vec {} (List.replicate 16 0) []).2).capacity = 16 := rfl
  rw [if_pos (by simp only [hcap]; omega)]
  simp only [ffiReserve]
  rw [destroyIntoVec_good (hi1.good _ List.mem_cons_self)]
  simp only [Out.bind, RVec.reserve]
  rw [if_neg (by simp only [hcap]; omega), if_pos (by omega),
    drop_good (hi1.good _ List.mem_cons_self)]
  rfl

/-! ### C18 -/

/-- C18. `alloc` gives zeroed bytes of the requested length, or fails above `isize::MAX`. -/
theorem C18_alloc (a : Alloc) (w : World) (_ : Reachable a w) (size : Nat) :
    if size ≤ isizeMax then
      ∃ heap b, ffiAlloc w.heap size = some (heap, b, true) ∧ b.len = size ∧ b.capacity = size ∧
        b.bytes heap = List.replicate size 0
    else ffiAlloc w.heap size = some (w.heap, .ffiDefault, false) := by
  by_cases h : size ≤ isizeMax
  · have hn : ¬ isizeMax < size := by omega
    simp only [h, if_true, ffiAlloc, RustBuffer.newWithSize, hn, if_false, rustCall]
    exact ⟨_, _, rfl, by simp [RustBuffer.fromVec, Heap.vec], by simp [RustBuffer.fromVec, Heap.vec],
      (vec_bytes _ _ _).1⟩
  · have hn : isizeMax < size := by omega
    simp only [h, if_false, ffiAlloc, RustBuffer.newWithSize, hn, if_true, rustCall]

/-- C18. `from_bytes` copies the bytes. -/
theorem C18_from_bytes (w : World) (bs : Bytes) :
    ∃ heap b, ffiFromBytes w.heap { len := bs.length, data := some bs } = some (heap, b, true) ∧
      b.bytes heap = bs ∧ b.len = bs.length := by
  simp only [ffiFromBytes, ForeignBytes.asSlice]
  rw [if_neg (by omega), if_pos (by simp)]
  refine ⟨_, _, rfl, ?_, ?_⟩
  · simpa using (vec_bytes w.heap (bs.take (bs.length : Int).toNat) []).1
  · simp [RustBuffer.fromVec, Heap.vec]

/-- C18. `reserve` keeps the contents and makes room for the requested extra bytes. -/
theorem C18_reserve (a : Alloc) (w : World) (hw : Reachable a w) (b : RustBuffer)
    (hb : b ∈ w.held) (additional : Nat) (hs : b.len + additional ≤ isizeMax) :
    ∃ heap b', ffiReserve a w.heap b additional = some (heap, b', true) ∧
      b'.bytes heap = b.bytes w.heap ∧ b'.len = b.len ∧ b.len + additional ≤ b'.capacity := by
  have hg := hw.inv.good b hb
  rcases reserve_good a hg additional hs with ⟨h1, e⟩ | ⟨spare, h1, e⟩
  · have := good_len hg
    exact ⟨_, _, e, rfl, rfl, by omega⟩
  · refine ⟨_, _, e, (vec_bytes _ _ _).1, ?_, ?_⟩
    · simp [RustBuffer.fromVec, Heap.vec, bytes_length hg]
    · simp [RustBuffer.fromVec, Heap.vec, bytes_length hg]; omega

/-- C18. Converting a vector to a buffer and back gives the same vector. -/
theorem C18_vec_round_trip (w : World) (bs spare : Bytes) :
    (RustBuffer.fromVec (w.heap.vec bs spare).2).destroyIntoVec (w.heap.vec bs spare).1 =
      .ok (w.heap.vec bs spare).1 (w.heap.vec bs spare).2 ∧
    (w.heap.vec bs spare).2.contents (w.heap.vec bs spare).1 = bs :=
  ⟨destroyIntoVec_good (good_vec _ _ _), (vec_bytes _ _ _).2⟩

/-- C18. Taking a buffer back fails exactly on an inconsistent one: null with a non-zero capacity
or length, or a length above the capacity. -/
theorem C18_inconsistent_iff (h : Heap) (b : RustBuffer) :
    b.destroyIntoVec h = .panic h ↔
      (b.data = .null ∧ (b.capacity ≠ 0 ∨ b.len ≠ 0)) ∨ (b.data ≠ .null ∧ b.capacity < b.len) := by
  unfold RustBuffer.destroyIntoVec
  by_cases hd : b.data = .null
  · simp only [hd, if_true]
    by_cases h1 : b.capacity = 0 <;> by_cases h2 : b.len = 0 <;> simp [h1, h2]
  · simp only [hd, if_false]
    by_cases h1 : b.len ≤ b.capacity
    · rw [if_pos h1]
      constructor
      · intro e
        unfold Heap.fromRawParts at e
        split at e
        · cases e
        · split at e
          · split at e <;> cases e
          · cases e
      · rintro (h2 | h2)
        · exact absurd h2.1 (by simp)
        · omega
    · rw [if_neg h1]; simp only [true_iff]; exact .inr ⟨hd, by omega⟩

/-- C18. The null empty buffer, which foreign code may pass, is accepted as the empty vector. -/
theorem C18_null_empty (h : Heap) :
    RustBuffer.ffiDefault.destroyIntoVec h = .ok h { ptr := .dangling, len := 0, cap := 0 } := rfl

/-! ### C19 -/

/-- C19. In any history of buffer calls in which each buffer value is used once: nothing touches a
released allocation (the history is defined), nothing is released twice, the live allocations are
exactly those of the buffers still held, and once none is held everything has been released. -/
theorem C19_no_leak_no_double_free (a : Alloc) (ops : List Op) :
    ∃ w, World.run a {} ops = some w ∧
      w.heap.released.Nodup ∧
      (∀ id, (∃ bs, w.heap.cells[id]? = some (some bs)) ↔ ∃ b ∈ w.held, b.data = .at id) ∧
      (∀ b ∈ w.held, ∀ b' ∈ w.held, ∀ id, b.data = .at id → b'.data = .at id → b = b') ∧
      (w.held = [] → ∀ id, id < w.heap.cells.length → id ∈ w.heap.released) := by
  obtain ⟨w, h, hi⟩ := run_inv a ops {} inv_init
  refine ⟨w, h, hi.relnd, ?_, ?_, ?_⟩
  · intro id
    constructor
    · rintro ⟨bs, hc⟩
      obtain ⟨b, hb, ho⟩ := List.mem_filterMap.1 (hi.cover id bs hc)
      refine ⟨b, hb, ?_⟩
      unfold RustBuffer.owned at ho
      split at ho <;> cases ho
      assumption
    · rintro ⟨b, hb, hd⟩
      rcases hi.good b hb with ⟨h1, _⟩ | ⟨id', bs, h1, h2, _⟩
      · rw [hd] at h1; cases h1
      · rw [hd] at h1; cases h1; exact ⟨bs, h2⟩
  · intro b hb b' hb' id h1 h2
    have hn := hi.nodup
    clear h hi
    generalize w.held = l at hb hb' hn
    induction l with
    | nil => cases hb
    | cons c cs ih =>
      rcases List.mem_cons.1 hb with rfl | hb1 <;> rcases List.mem_cons.1 hb' with rfl | hb2
      · rfl
      · rw [List.filterMap_cons_some (b := id) (by simp [RustBuffer.owned, h1])] at hn
        exact absurd (List.mem_filterMap.2 ⟨b', hb2, by simp [RustBuffer.owned, h2]⟩)
          (List.nodup_cons.1 hn).1
      · rw [List.filterMap_cons_some (b := id) (by simp [RustBuffer.owned, h2])] at hn
        exact absurd (List.mem_filterMap.2 ⟨b, hb1, by simp [RustBuffer.owned, h1]⟩)
          (List.nodup_cons.1 hn).1
      · refine ih hb1 hb2 ?_
        rw [List.filterMap_cons] at hn
        split at hn
        · exact hn
        · exact (List.nodup_cons.1 hn).2
  · intro he id hid
    rw [hi.rel id]
    cases hc : w.heap.cells[id]? with
    | none => rw [List.getElem?_eq_none_iff] at hc; omega
    | some c =>
      cases c with
      | none => rfl
      | some bs => have := hi.cover id bs hc; simp [he] at this

example : ∃ w, World.run stdAlloc {} (demoOps ++ [.toRust 0, .free 0]) = some w ∧
    w.held = [] ∧ w.heap.cells.length = 4 ∧ w.heap.released.length = 4 :=
  ⟨_, rfl, by decide +kernel, by decide +kernel, by decide +kernel⟩

/-- C19. The discipline is needed: freeing the same buffer value twice is undefined. -/
theorem C19_twice_is_undefined :
    ∃ h b, ffiAlloc {} 4 = some (h, b, true) ∧ ∃ h', ffiFree h b = some (h', (), true) ∧
      ffiFree h' b = none :=
  ⟨_, _, rfl, _, rfl, by decide +kernel⟩

/-! ### C51 -/

/-- C51. Borrowed foreign bytes are seen as exactly the foreign bytes; null is accepted only with
length zero, and a negative length is always refused. -/
theorem C51_foreign_bytes (h : Heap) (f : ForeignBytes) :
    (∀ bs rest, f.data = some (bs ++ rest) → f.len = bs.length → f.asSlice h = .ok h bs) ∧
    (f.data = none → f.asSlice h = if f.len = 0 then .ok h [] else .panic h) ∧
    (f.len < 0 → f.asSlice h = .panic h) ∧
    (∀ bs, f.asSlice h = .ok h bs → f.len = bs.length) := by
  refine ⟨?_, ?_, ?_, ?_⟩
  · intro bs rest h1 h2
    simp [ForeignBytes.asSlice, h1, h2]
  · intro h1; simp [ForeignBytes.asSlice, h1]
  · intro h1
    unfold ForeignBytes.asSlice
    split
    · rw [if_neg (by omega)]
    · rw [if_pos h1]
  · intro bs h1
    unfold ForeignBytes.asSlice at h1
    split at h1
    · split at h1 <;> cases h1; simpa
    · split at h1
      · cases h1
      · split at h1 <;> cases h1
        simp; omega

example : (ForeignBytes.asSlice {} { len := 2, data := some [5, 6, 7] }) = .ok {} [5, 6] := rfl

end Verif.Props.Buffer
