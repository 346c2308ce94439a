import Verif.Jni.NativesSpec
import Verif.Jni.CallsLemmas
import Verif.Gen.NamesLemmas
/-
Lemmas for C92.
-/
namespace Verif.Jni.Natives
open Verif.Jni Verif.Jni.Calls

/-! ### Names -/

/-- The functions for buffers. -/
def bufferNames : List String :=
  ["ffiBufferCheckSupport", "ffiBufferAlloc", "ffiBufferFree", "ffiBufferReadString", "ffiBufferWriteString",
   "ffiBufferReadBuffer", "ffiBufferWriteBuffer"]

/-- A number for each group of functions that are made together. -/
def group : Native → Nat
  | .buffer _ => 10
  | .fn _ _ _ => 11
  | .leftover => 12
  | .num .clone _ | .num .free _ => 0
  | .num .fromValues _ | .num .intoInner _ => 1
  | .num .setReturn _ | .num .setError _ => 2
  | .num .poll _ | .num .cancel _ | .num .freeFuture _ => 3
  | .num .success _ | .num .error _ | .num .unexpected _ => 4

/-- The functions for buffers are those that there are. -/
def Good : Native → Prop
  | .buffer s => s ∈ bufferNames
  | _ => True

theorem text_plain (s : Stem) : ∀ c ∈ s.text.toList, c.isDigit = false := by cases s <;> decide +kernel

theorem text_inj {s s' : Stem} (h : s.text.toList = s'.text.toList) : s = s' := by
  revert h
  cases s <;> cases s' <;> decide +kernel

theorem num_inj {s s' : Stem} {i j : Nat} (h : (Native.num s i).name = (Native.num s' j).name) : s = s' ∧ i = j := by
  have h1 : s.text ++ toString i = s'.text ++ toString j := String.toList_inj.1 h
  have e := congrArg stemOf h1
  rw [stemOf_append _ _ (text_plain s), stemOf_append _ _ (text_plain s')] at e
  have e2 := text_inj e
  subst e2
  refine ⟨rfl, toString_inj ?_⟩
  have h3 := congrArg String.toList h1
  simp only [String.toList_append] at h3
  exact String.toList_inj.1 (List.append_cancel_left h3)

theorem take3 (a b : Str) (h : 3 ≤ a.length) : (a ++ b).take 3 = a.take 3 := List.take_append_of_le_length h

/-- How names begin. -/
def begins : Nat → List String
  | 10 => ["ffi"]
  | 11 => ["fun", "met", "con"]
  | 12 => ["uni"]
  | _ => ["obj", "box", "set", "rus", "com"]

theorem stem_begins (s : Stem) : (s.text.toList.take 3) ∈ ["obj", "box", "set", "rus", "com"].map String.toList ∧
    3 ≤ s.text.toList.length := by cases s <;> decide +kernel

theorem buffer_begins : ∀ s ∈ bufferNames, s.toList.take 3 = "ffi".toList := by decide +kernel

theorem word_mem (k : Gen.Names.Kind) : k.word ∈ ["function", "method", "constructor"] := by
  cases k <;> simp [Gen.Names.Kind.word]

theorem word_begins (k : Gen.Names.Kind) : (k.word.toList.take 3) ∈ ["fun", "met", "con"].map String.toList ∧
    3 ≤ k.word.toList.length := by
  have key : ∀ w ∈ ["function", "method", "constructor"], (w.toList.take 3) ∈ ["fun", "met", "con"].map String.toList ∧
    3 ≤ w.toList.length := by decide +kernel
  exact key _ (word_mem k)

theorem word_plain (k : Gen.Names.Kind) : ∀ c ∈ k.word.toList, c.isAlphanum = true := by
  have key : ∀ w ∈ ["function", "method", "constructor"], ∀ c ∈ w.toList, c.isAlphanum = true := by decide +kernel
  exact key _ (word_mem k)

theorem name_begins (x : Native) (h : Good x) : x.name.take 3 ∈ (begins (group x)).map String.toList := by
  cases x with
  | buffer s =>
    show s.toList.take 3 ∈ _
    rw [buffer_begins s h]
    exact List.mem_map_of_mem (by simp [group, begins])
  | fn c k n =>
    show ((k.word.toList ++ _ ++ _ ++ _).take 3) ∈ _
    rw [List.append_assoc, List.append_assoc, take3 _ _ (word_begins k).2]
    exact (word_begins k).1
  | leftover => exact (by decide +kernel : ("uniffiKotlinFutureComplete".toList.take 3) ∈ ["uni"].map String.toList)
  | num s i =>
    show (s.text ++ toString i).toList.take 3 ∈ _
    rw [String.toList_append, take3 _ _ (stem_begins s).2]
    have h := (stem_begins s).1
    cases s <;> exact h

theorem begins_apart : ∀ i ∈ [0, 1, 2, 3, 4, 10, 11, 12], ∀ j ∈ [0, 1, 2, 3, 4, 10, 11, 12],
    ∀ u ∈ (begins i).map String.toList, u ∈ (begins j).map String.toList → i = j ∨ i < 5 ∧ j < 5 := by decide +kernel

theorem group_mem (x : Native) : group x ∈ [0, 1, 2, 3, 4, 10, 11, 12] := by
  cases x with
  | num s i => cases s <;> simp [group]
  | _ => simp [group]

theorem group_num {x : Native} (h : group x < 5) : ∃ s i, x = .num s i := by
  cases x with
  | num s i => exact ⟨s, i, rfl⟩
  | _ => simp [group] at h

theorem name_group {x y : Native} (hx : Good x) (hy : Good y) (h : x.name = y.name) : group x = group y := by
  have h1 := name_begins x hx
  rw [h] at h1
  rcases begins_apart _ (group_mem x) _ (group_mem y) _ h1 (name_begins y hy) with e | ⟨e1, e2⟩
  · exact e
  · obtain ⟨s, i, rfl⟩ := group_num e1
    obtain ⟨s', j, rfl⟩ := group_num e2
    obtain ⟨rfl, rfl⟩ := num_inj h
    rfl

/-! ### Lists of names -/

theorem names_append {A B : List Native} {i j : List Nat} (hA : (A.map Native.name).Nodup ∧ ∀ x ∈ A, Good x ∧ group x ∈ i)
    (hB : (B.map Native.name).Nodup ∧ ∀ x ∈ B, Good x ∧ group x ∈ j) (hij : ∀ n ∈ j, n ∉ i) :
    ((A ++ B).map Native.name).Nodup ∧ ∀ x ∈ A ++ B, Good x ∧ group x ∈ i ++ j := by
  obtain ⟨hA, gA⟩ := hA
  obtain ⟨hB, gB⟩ := hB
  constructor
  · rw [List.map_append, List.nodup_append]
    refine ⟨hA, hB, ?_⟩
    intro u hu v hv e
    obtain ⟨x, hx, rfl⟩ := List.mem_map.1 hu
    obtain ⟨y, hy, rfl⟩ := List.mem_map.1 hv
    have := name_group (gA x hx).1 (gB y hy).1 e
    exact hij _ (gB y hy).2 (this ▸ (gA x hx).2)
  · intro x hx
    rcases List.mem_append.1 hx with h | h
    · exact ⟨(gA x h).1, List.mem_append_left _ (gA x h).2⟩
    · exact ⟨(gB x h).1, List.mem_append_right _ (gB x h).2⟩

theorem names_num {α : Type} (L : List α) (k : α → Nat) (g : α → List Stem) (hg : ∀ x, (g x).Nodup) (hk : (L.map k).Nodup)
    (j : List Nat) (hj : ∀ x, ∀ s ∈ g x, ∀ i, group (.num s i) ∈ j) :
    ((L.flatMap fun x => (g x).map fun s => Native.num s (k x)).map Native.name).Nodup ∧
      ∀ y ∈ L.flatMap fun x => (g x).map fun s => Native.num s (k x), Good y ∧ group y ∈ j := by
  refine ⟨?_, by
    intro y hy
    obtain ⟨x, -, hy⟩ := List.mem_flatMap.1 hy
    obtain ⟨s, hs, rfl⟩ := List.mem_map.1 hy
    exact ⟨trivial, hj x s hs _⟩⟩
  rw [List.map_flatMap, List.nodup_flatMap]
  constructor
  · intro x _
    rw [List.map_map, List.Nodup, List.pairwise_map]
    exact (hg x).imp fun h e => h (num_inj e).1
  · rw [List.Nodup, List.pairwise_map] at hk
    refine hk.imp ?_
    intro x y hxy u hu hv
    simp only [List.mem_map] at hu hv
    obtain ⟨-, ⟨s, -, rfl⟩, rfl⟩ := hu
    obtain ⟨-, ⟨s', -, rfl⟩, e⟩ := hv
    exact hxy (num_inj e).2.symm

theorem firsts_nodup (a : Api) : ∀ (rs : List Result) (seen : List Nat),
    ((a.firsts seen rs).map a.resultId).Nodup ∧ ∀ i ∈ (a.firsts seen rs).map a.resultId, i ∉ seen
  | [], _ => by simp [Api.firsts]
  | r :: rs, seen => by
    unfold Api.firsts
    split
    · exact firsts_nodup a rs seen
    · rename_i h
      have ih := firsts_nodup a rs (a.resultId r :: seen)
      rw [List.map_cons]
      refine ⟨List.nodup_cons.2 ⟨fun hm => ih.2 _ hm (.head _), ih.1⟩, ?_⟩
      intro i hi
      rcases List.mem_cons.1 hi with rfl | hi
      · exact h
      · exact fun hm => ih.2 i hi (.tail _ hm)

/-! ### Symbols -/

theorem mangle_plain {s : Str} (h : ∀ c ∈ s, c.isAlphanum = true) : mangle s = s := by
  induction s with
  | nil => rfl
  | cons c s ih =>
    show mangleChar c ++ mangle s = c :: s
    rw [ih fun d hd => h d (.tail _ hd), mangleChar, if_pos (h c (.head _))]
    rfl

theorem camel_plain (s : Str) : ∀ c ∈ Gen.Names.upperCamel s, c.isAlphanum = true := by
  intro c hc
  rw [Gen.Names.upperCamel, List.mem_flatMap] at hc
  obtain ⟨w, hw, hc⟩ := hc
  have hw := Gen.Names.words_alnum hw
  cases w with
  | nil => simp [Gen.Names.capitalize] at hc
  | cons d w =>
    simp only [Gen.Names.capitalize, Gen.Names.lower, List.mem_cons, List.mem_map] at hc
    rcases hc with rfl | ⟨e, he, rfl⟩
    · exact Gen.Names.upper_alnum (hw d (.head _))
    · exact Gen.Names.low_alnum (Gen.Names.lower_low (hw e (.tail _ he)))

theorem buffer_plain : ∀ s ∈ bufferNames, ∀ c ∈ s.toList, c.isAlphanum = true := by decide +kernel
theorem stem_plain (s : Stem) : ∀ c ∈ s.text.toList, c.isAlphanum = true := by cases s <;> decide +kernel

theorem name_plain (x : Native) (h : Good x) : ∀ c ∈ x.name, c.isAlphanum = true := by
  cases x with
  | buffer s => exact buffer_plain s h
  | fn cr k n =>
    intro c hc
    have hc : c ∈ k.word.toList ++ Gen.Names.upperCamel cr ++ k.owner ++ Gen.Names.upperCamel n := hc
    rw [List.mem_append, List.mem_append, List.mem_append] at hc
    rcases hc with ((hc | hc) | hc) | hc
    · exact word_plain k c hc
    · exact camel_plain _ c hc
    · cases k with
      | function => simp [Gen.Names.Kind.owner] at hc
      | method s => exact camel_plain _ c hc
      | constructor s => exact camel_plain _ c hc
    · exact camel_plain _ c hc
  | leftover =>
    exact (by decide +kernel : ∀ c ∈ "uniffiKotlinFutureComplete".toList, c.isAlphanum = true)
  | num s i =>
    intro c hc
    have hc : c ∈ (s.text ++ toString i).toList := hc
    rw [String.toList_append, List.mem_append] at hc
    rcases hc with hc | hc
    · exact stem_plain s c hc
    · have := toString_digits i c hc
      simp [Char.isAlphanum, this]

theorem symbol_start : "Java_".toList ++ mangle "uniffi/Scaffolding".toList ++ ['_'] = "Java_uniffi_Scaffolding_".toList := by
  decide +kernel

theorem symbol_looked (x : Native) (h : Good x) : lookedFor "uniffi/Scaffolding".toList x.name = x.symbol := by
  unfold lookedFor Native.symbol
  rw [mangle_plain (name_plain x h), ← symbol_start, List.append_assoc _ ['_'], List.singleton_append]

end Verif.Jni.Natives
