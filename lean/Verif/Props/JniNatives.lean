import Verif.Jni.NativesLemmas
/-
C92. Every native function that generated Kotlin code declares is exported by Rust, under the symbol that the virtual machine
looks for and with the same parameters.
-/
namespace Verif.Props.JniNatives
open Verif.Jni Verif.Jni.Calls Verif.Jni.Natives

/-! ### Parameters -/

theorem ffi_same (f : Ffi) : ofKotlin (Lookup.ffiKt f) = ofRust (ffiRs f) ∧ ofKotlin (Lookup.ffiKt f) ≠ none := by
  cases f <;> decide +kernel

theorem same_nil : Same [] [] := ⟨rfl, by simp⟩

theorem same_cons {k r : String} {ks rs : List String} (h : ofKotlin k = ofRust r ∧ ofKotlin k ≠ none) (hs : Same ks rs) :
    Same (k :: ks) (r :: rs) := by
  refine ⟨by rw [List.map_cons, List.map_cons, h.1, hs.1], ?_⟩
  rw [List.map_cons, List.mem_cons, not_or]
  exact ⟨h.2.symm, hs.2⟩

theorem same_ffi : ∀ l : List Ffi, Same (l.map Lookup.ffiKt) (l.map ffiRs)
  | [] => same_nil
  | f :: l => same_cons (ffi_same f) (same_ffi l)

theorem long_same : ofKotlin "kotlin.Long" = ofRust "i64" ∧ ofKotlin "kotlin.Long" ≠ none := by decide +kernel
theorem long_same' : ofKotlin "kotlin.Long" = ofRust "::std::primitive::i64" ∧ ofKotlin "kotlin.Long" ≠ none := by decide +kernel
theorem int_same : ofKotlin "kotlin.Int" = ofRust "::std::primitive::i32" ∧ ofKotlin "kotlin.Int" ≠ none := by decide +kernel
theorem buf_same : ofKotlin "java.nio.ByteBuffer" = ofRust "uniffi_jni::jobject" ∧ ofKotlin "java.nio.ByteBuffer" ≠ none := by
  decide +kernel
theorem str_same : ofKotlin "kotlin.String" = ofRust "uniffi_jni::jstring" ∧ ofKotlin "kotlin.String" ≠ none := by decide +kernel
theorem cont_same : ofKotlin "kotlin.coroutines.Continuation<kotlin.Boolean>" = ofRust "uniffi_jni::jobject" ∧
    ofKotlin "kotlin.coroutines.Continuation<kotlin.Boolean>" ≠ none := by decide +kernel
theorem compl_same : ofKotlin "CompleteRustFuture" = ofRust "uniffi_jni::jobject" ∧ ofKotlin "CompleteRustFuture" ≠ none := by
  decide +kernel

/-! ### Declarations and functions -/

/-- A declaration and the function for it. -/
def Pair (d e : Native × List String) : Prop := e.1 = d.1 ∧ Same d.2 e.2

/-- Each declaration has a function and the other way round. -/
def Paired (A B : List (Native × List String)) : Prop :=
  (∀ d ∈ A, ∃ e ∈ B, Pair d e) ∧ ∀ e ∈ B, ∃ d ∈ A, Pair d e

theorem paired_nil : Paired [] [] := ⟨by simp, by simp⟩

theorem paired_append {A B A' B' : List (Native × List String)} (h : Paired A B) (h' : Paired A' B') :
    Paired (A ++ A') (B ++ B') := by
  constructor
  · intro d hd
    rcases List.mem_append.1 hd with hd | hd
    · obtain ⟨e, he, p⟩ := h.1 d hd; exact ⟨e, List.mem_append_left _ he, p⟩
    · obtain ⟨e, he, p⟩ := h'.1 d hd; exact ⟨e, List.mem_append_right _ he, p⟩
  · intro e he
    rcases List.mem_append.1 he with he | he
    · obtain ⟨d, hd, p⟩ := h.2 e he; exact ⟨d, List.mem_append_left _ hd, p⟩
    · obtain ⟨d, hd, p⟩ := h'.2 e he; exact ⟨d, List.mem_append_right _ hd, p⟩

theorem paired_one {n : Native} {k r : List String} (h : Same k r) : Paired [(n, k)] [(n, r)] := by
  constructor
  · intro d hd
    rw [List.mem_singleton] at hd
    subst hd
    exact ⟨_, List.mem_singleton.2 rfl, rfl, h⟩
  · intro d hd
    rw [List.mem_singleton] at hd
    subst hd
    exact ⟨_, List.mem_singleton.2 rfl, rfl, h⟩

theorem paired_cons {n : Native} {k r : List String} {A B : List (Native × List String)} (h : Same k r) (h' : Paired A B) :
    Paired ((n, k) :: A) ((n, r) :: B) := paired_append (paired_one h) h'

theorem paired_flatMap {α : Type} {L : List α} {f g : α → List (Native × List String)} (h : ∀ x, Paired (f x) (g x)) :
    Paired (L.flatMap f) (L.flatMap g) := by
  induction L with
  | nil => exact paired_nil
  | cons x L ih => exact paired_append (h x) ih

theorem paired_mem {A A' B B' : List (Native × List String)} (hA : ∀ d, d ∈ A ↔ d ∈ A') (hB : ∀ d, d ∈ B ↔ d ∈ B')
    (h : Paired A B) : Paired A' B' := by
  constructor
  · intro d hd
    obtain ⟨e, he, p⟩ := h.1 d ((hA d).2 hd)
    exact ⟨e, (hB e).1 he, p⟩
  · intro e he
    obtain ⟨d, hd, p⟩ := h.2 e ((hB e).2 he)
    exact ⟨d, (hA d).1 hd, p⟩

/-- What Kotlin declares for a definition. -/
def defKt (a : Api) : Def → List (Native × List String)
  | .cls n => [(.num .free (a.root.id (.iface n)), ["kotlin.Long"]), (.num .clone (a.root.id (.iface n)), ["kotlin.Long"])]
  | .box t => a.boxKt t
  | _ => []

theorem defs_paired (a : Api) (hs : a.root.Sound) : Paired
    ((a.root.packages.flatten.filterMap Def.cls?).flatMap a.clsKt ++ (a.root.packages.flatten.filterMap Def.box?).flatMap a.boxKt)
    (a.root.defs.flatMap a.defRs) := by
  refine paired_mem (A := a.root.packages.flatten.flatMap (defKt a)) (B := a.root.packages.flatten.flatMap a.defRs) ?_ ?_
    (paired_flatMap ?_)
  · intro x
    rw [List.mem_append, List.mem_flatMap, List.mem_flatMap, List.mem_flatMap]
    constructor
    · rintro ⟨d, hd, h⟩
      cases d with
      | cls n =>
        refine .inl ⟨.iface n, List.mem_filterMap.2 ⟨_, hd, rfl⟩, ?_⟩
        simp only [defKt, Api.clsKt, List.mem_cons, List.not_mem_nil, or_false] at h ⊢
        exact h.symm
      | box t => exact .inr ⟨t, List.mem_filterMap.2 ⟨_, hd, rfl⟩, h⟩
      | _ => cases h
    · rintro (⟨t, ht, h⟩ | ⟨t, ht, h⟩)
      · obtain ⟨d, hd, e⟩ := List.mem_filterMap.1 ht
        cases d with
        | cls n =>
          cases e
          refine ⟨_, hd, ?_⟩
          simp only [defKt, Api.clsKt, List.mem_cons, List.not_mem_nil, or_false] at h ⊢
          exact h.symm
        | _ => cases e
      · obtain ⟨d, hd, e⟩ := List.mem_filterMap.1 ht
        cases d with
        | box u => cases e; exact ⟨_, hd, h⟩
        | _ => cases e
  · intro x
    rw [List.mem_flatMap, List.mem_flatMap]
    exact ⟨fun ⟨d, hd, h⟩ => ⟨d, (defs_iff hs d).2 hd, h⟩, fun ⟨d, hd, h⟩ => ⟨d, (defs_iff hs d).1 hd, h⟩⟩
  · intro d
    cases d with
    | cls n => exact paired_cons (same_cons long_same same_nil) (paired_one (same_cons long_same same_nil))
    | box t => exact paired_cons (same_ffi _) (paired_one (same_cons long_same' same_nil))
    | _ => exact paired_nil

theorem buffer_paired : Paired bufferKt bufferRs :=
  paired_cons same_nil <| paired_cons (same_cons int_same same_nil) <| paired_cons (same_cons buf_same same_nil) <|
  paired_cons (same_cons buf_same (same_cons int_same same_nil)) <|
  paired_cons (same_cons buf_same (same_cons int_same (same_cons str_same same_nil))) <|
  paired_cons (same_cons buf_same (same_cons int_same same_nil)) <|
  paired_one (same_cons buf_same (same_cons int_same (same_cons buf_same same_nil)))

theorem sync_paired (a : Api) (r : Result) : Paired (a.syncKt r) (a.syncRs r) := by
  unfold Api.syncKt Api.syncRs
  refine paired_append ?_ ?_
  · cases r.ret with
    | none => exact paired_nil
    | some t =>
      dsimp only
      split
      · exact paired_one (same_cons long_same (same_ffi _))
      · exact paired_nil
  · cases r.throws with
    | none => exact paired_nil
    | some t => exact paired_one (same_cons long_same (same_ffi _))

theorem rustAsync_paired (a : Api) (r : Result) : Paired (a.rustAsyncKt r) (a.rustAsyncRs r) := by
  refine paired_cons ?_ (paired_cons (same_cons long_same same_nil) (paired_one (same_cons long_same same_nil)))
  refine same_cons long_same (same_cons cont_same ?_)
  cases r.ret with
  | some t => exact same_cons compl_same same_nil
  | none => exact same_nil

theorem kotlinAsync_paired (a : Api) (r : Result) : Paired (a.kotlinAsyncKt r) (a.kotlinAsyncRs r) := by
  refine paired_append (paired_append (paired_one (same_cons long_same ?_)) ?_) (paired_one (same_cons long_same same_nil))
  · cases r.ret with
    | none => exact same_nil
    | some t => exact same_ffi _
  · cases r.throws with
    | none => exact paired_nil
    | some t => exact paired_one (same_cons long_same (same_ffi _))

theorem all_paired (a : Api) (hs : a.root.Sound) : ∃ K, a.kotlin = K ++ [(.leftover, ["kotlin.Long", "kotlin.Int"])] ∧
    Paired K a.rust := by
  refine ⟨_, rfl, ?_⟩
  have pfns : Paired (a.fns.map fnKt) (a.fns.map fnRs) := by
    rw [List.map_eq_flatMap, List.map_eq_flatMap]
    exact paired_flatMap fun f => paired_one (same_ffi _)
  have := paired_append (paired_append (paired_append (paired_append (paired_append buffer_paired pfns) (defs_paired a hs))
    (paired_flatMap (L := a.firsts [] a.kotlinSync) (sync_paired a)))
    (paired_flatMap (L := a.firsts [] a.rustAsync) (rustAsync_paired a)))
    (paired_flatMap (L := a.firsts [] a.kotlinAsync) (kotlinAsync_paired a))
  refine paired_mem ?_ ?_ this
  · intro d
    simp only [List.mem_append, or_assoc]
  · intro d
    unfold Api.rust
    simp only [List.mem_append]
    tauto

/-! ### Names -/

theorem buffer_good : (((bufferRs.map Prod.fst).map Native.name).Nodup ∧ ∀ x ∈ bufferRs.map Prod.fst, Good x ∧ group x ∈ [10]) ∧
    bufferKt.map Prod.fst = bufferRs.map Prod.fst := by
  have e : bufferRs.map Prod.fst = bufferNames.map Native.buffer := rfl
  refine ⟨⟨?_, ?_⟩, rfl⟩
  · have : (bufferNames.map String.toList).Nodup := by decide +kernel
    rw [e, List.map_map]
    exact this
  · rw [e]
    intro x hx
    obtain ⟨s, hs, rfl⟩ := List.mem_map.1 hx
    exact ⟨hs, .head _⟩

/-- The numbered functions for a result of a method implemented in Kotlin. -/
def syncStems (a : Api) (r : Result) : List Stem :=
  (match r.ret with | some t => if a.root.one t = false then [.setReturn] else [] | none => []) ++
    (match r.throws with | some _ => [.setError] | none => [])

/-- The same if it is async. -/
def asyncStems (r : Result) : List Stem :=
  [.success] ++ (match r.throws with | some _ => [.error] | none => []) ++ [.unexpected]

/-- The numbered functions for a definition. -/
def defStems : Def → List Stem
  | .cls _ => [.free, .clone]
  | .box _ => [.fromValues, .intoInner]
  | _ => []

theorem sync_fst (a : Api) (r : Result) : (a.syncRs r).map Prod.fst = (syncStems a r).map (fun s => .num s (a.resultId r)) ∧
    (a.syncKt r).map Prod.fst = (a.syncRs r).map Prod.fst := by
  unfold Api.syncRs Api.syncKt syncStems
  cases r.ret with
  | none => cases r.throws <;> exact ⟨rfl, rfl⟩
  | some t =>
    dsimp only
    split <;> cases r.throws <;> exact ⟨rfl, rfl⟩

theorem async_fst (a : Api) (r : Result) :
    (a.kotlinAsyncRs r).map Prod.fst = (asyncStems r).map (fun s => .num s (a.resultId r)) ∧
    (a.kotlinAsyncKt r).map Prod.fst = (a.kotlinAsyncRs r).map Prod.fst := by
  unfold Api.kotlinAsyncRs Api.kotlinAsyncKt asyncStems
  cases r.throws <;> exact ⟨rfl, rfl⟩

theorem def_fst (a : Api) (d : Def) : (a.defRs d).map Prod.fst = (defStems d).map fun s => .num s (a.root.id d.self) := by
  cases d <;> rfl

theorem sync_names (a : Api) (L : List Result) (h : (L.map a.resultId).Nodup) :
    (((L.flatMap a.syncRs).map Prod.fst).map Native.name).Nodup ∧
      ∀ x ∈ (L.flatMap a.syncRs).map Prod.fst, Good x ∧ group x ∈ [2] := by
  rw [List.map_flatMap, funext fun r => (sync_fst a r).1]
  refine names_num L a.resultId (syncStems a) ?_ h [2] ?_
  · intro r
    unfold syncStems
    rcases r with ⟨_ | t, _ | e⟩ <;> dsimp only <;> (try split) <;> simp
  · intro r s hs i
    unfold syncStems at hs
    rcases r with ⟨_ | t, _ | e⟩ <;> dsimp only at hs <;> (try split at hs) <;> simp at hs <;>
      (try rcases hs with rfl | rfl) <;> (try subst hs) <;> simp [group]

theorem rustAsync_names (a : Api) (L : List Result) (h : (L.map a.resultId).Nodup) :
    (((L.flatMap a.rustAsyncRs).map Prod.fst).map Native.name).Nodup ∧
      ∀ x ∈ (L.flatMap a.rustAsyncRs).map Prod.fst, Good x ∧ group x ∈ [3] := by
  rw [List.map_flatMap]
  refine names_num L a.resultId (fun _ => [.poll, .cancel, .freeFuture]) (fun _ => by decide) h [3] ?_
  intro r s hs i
  simp only [List.mem_cons, List.not_mem_nil, or_false] at hs
  rcases hs with rfl | rfl | rfl <;> simp [group]

theorem kotlinAsync_names (a : Api) (L : List Result) (h : (L.map a.resultId).Nodup) :
    (((L.flatMap a.kotlinAsyncRs).map Prod.fst).map Native.name).Nodup ∧
      ∀ x ∈ (L.flatMap a.kotlinAsyncRs).map Prod.fst, Good x ∧ group x ∈ [4] := by
  rw [List.map_flatMap, funext fun r => (async_fst a r).1]
  refine names_num L a.resultId asyncStems ?_ h [4] ?_
  · intro r
    unfold asyncStems
    cases r.throws <;> simp
  · intro r s hs i
    unfold asyncStems at hs
    rcases r with ⟨_, _ | e⟩ <;> simp at hs
    · rcases hs with rfl | rfl <;> simp [group]
    · rcases hs with rfl | rfl | rfl <;> simp [group]

theorem defs_names (a : Api) : (((a.root.defs.flatMap a.defRs).map Prod.fst).map Native.name).Nodup ∧
    ∀ x ∈ (a.root.defs.flatMap a.defRs).map Prod.fst, Good x ∧ group x ∈ [0, 1] := by
  rw [List.map_flatMap, funext (def_fst a)]
  refine names_num _ (fun d : Def => a.root.id d.self) defStems ?_ ?_ [0, 1] ?_
  · intro d
    cases d <;> simp [defStems]
  · rw [List.Nodup, List.pairwise_map]
    exact keep_pairwise a.root _ _
  · intro d s hs i
    cases d <;> simp [defStems] at hs <;> rcases hs with rfl | rfl <;> simp [group]

theorem fns_names (a : Api) (h : (a.fns.map fun f => (fnRs f).1.name).Nodup) : ((((a.fns.map fnRs).map Prod.fst).map Native.name).Nodup ∧
    ∀ x ∈ (a.fns.map fnRs).map Prod.fst, Good x ∧ group x ∈ [11]) := by
  constructor
  · rw [List.map_map, List.map_map]
    exact h
  · intro x hx
    rw [List.map_map] at hx
    obtain ⟨f, -, rfl⟩ := List.mem_map.1 hx
    exact ⟨trivial, .head _⟩

theorem rust_names (a : Api) (h : (a.fns.map fun f => (fnRs f).1.name).Nodup) :
    ((a.rust.map Prod.fst).map Native.name).Nodup ∧ ∀ x ∈ a.rust.map Prod.fst, Good x ∧ group x ∈ [3, 4, 2, 10, 11, 0, 1] := by
  unfold Api.rust
  simp only [List.map_append (f := Prod.fst)]
  exact names_append (names_append (names_append (names_append (names_append
    (rustAsync_names a _ (firsts_nodup a _ _).1) (kotlinAsync_names a _ (firsts_nodup a _ _).1) (by decide))
    (sync_names a _ (firsts_nodup a _ _).1) (by decide)) buffer_good.1 (by decide)) (fns_names a h) (by decide))
    (defs_names a) (by decide)

theorem rust_all (a : Api) : ∀ x ∈ a.rust.map Prod.fst, Good x ∧ group x ∈ [3, 4, 2, 10, 11, 0, 1] := by
  unfold Api.rust
  simp only [List.map_append (f := Prod.fst), List.mem_append]
  have up : ∀ {x : Native} {i : List Nat}, Good x ∧ group x ∈ i → i ⊆ [3, 4, 2, 10, 11, 0, 1] →
      Good x ∧ group x ∈ [3, 4, 2, 10, 11, 0, 1] := fun h hi => ⟨h.1, hi h.2⟩
  rintro x (((((h | h) | h) | h) | h) | h)
  · exact up ((rustAsync_names a _ (firsts_nodup a _ _).1).2 x h) (by decide)
  · exact up ((kotlinAsync_names a _ (firsts_nodup a _ _).1).2 x h) (by decide)
  · exact up ((sync_names a _ (firsts_nodup a _ _).1).2 x h) (by decide)
  · exact up (buffer_good.1.2 x h) (by decide)
  · rw [List.map_map] at h
    obtain ⟨f, -, rfl⟩ := List.mem_map.1 h
    exact up (i := [11]) ⟨trivial, .head _⟩ (by decide)
  · exact up ((defs_names a).2 x h) (by decide)

theorem rust_good (a : Api) : ∀ x ∈ a.rust.map Prod.fst, Good x := fun x h => (rust_all a x h).1

theorem rust_group (a : Api) : ∀ x ∈ a.rust.map Prod.fst, group x ∈ [3, 4, 2, 10, 11, 0, 1] := fun x h => (rust_all a x h).2

/-! ### Properties -/

/-- C92. For each native function that Kotlin declares, but for one that is never called, Rust exports a function under the
symbol that the virtual machine looks for, and its parameters have the same types. -/
theorem C92_found (a : Api) (hs : a.root.Sound) (d : Native × List String) (hd : d ∈ a.kotlin) (hl : d.1 ≠ .leftover) :
    ∃ e ∈ a.rust, e.1 = d.1 ∧ e.1.symbol = lookedFor "uniffi/Scaffolding".toList d.1.name ∧ Same d.2 e.2 := by
  obtain ⟨K, e, p⟩ := all_paired a hs
  rw [e, List.mem_append] at hd
  rcases hd with hd | hd
  · obtain ⟨e, he, p1, p2⟩ := p.1 d hd
    refine ⟨e, he, p1, ?_, p2⟩
    rw [← p1, symbol_looked _ (rust_good a _ (List.mem_map_of_mem he))]
  · rw [List.mem_singleton] at hd
    exact absurd (congrArg Prod.fst hd) hl

/-- C92. Each function that Rust exports is declared in Kotlin. -/
theorem C92_declared (a : Api) (hs : a.root.Sound) (e : Native × List String) (he : e ∈ a.rust) :
    ∃ d ∈ a.kotlin, d.1 = e.1 ∧ e.1.symbol = lookedFor "uniffi/Scaffolding".toList d.1.name ∧ Same d.2 e.2 := by
  obtain ⟨K, k, p⟩ := all_paired a hs
  obtain ⟨d, hd, p1, p2⟩ := p.2 e he
  refine ⟨d, by rw [k]; exact List.mem_append_left _ hd, p1.symm, ?_, p2⟩
  rw [← p1, symbol_looked _ (rust_good a _ (List.mem_map_of_mem he))]

/-- C92. No symbol is exported twice, if the functions and methods of the interface have different ones (C83). -/
theorem C92_once (a : Api) (h : (a.fns.map fun f => Gen.Names.jniMethod f.crate f.kind f.name).Nodup) :
    (a.rust.map fun e => e.1.symbol).Nodup := by
  have := (rust_names a h).1
  rw [List.map_map] at this
  rw [List.Nodup, List.pairwise_map] at this ⊢
  exact this.imp fun n e => n (List.append_cancel_left e)

theorem cls_known {a : Api} (hs : a.root.Sound) {t : Ty} (h : t ∈ a.root.packages.flatten.filterMap Def.cls?) :
    t ∈ a.root.types := by
  obtain ⟨d, hd, e⟩ := List.mem_filterMap.1 h
  cases d with
  | cls n => cases e; exact hs.known _ (occurs_self hd)
  | _ => cases e

theorem box_known {a : Api} (hs : a.root.Sound) {t : Ty} (h : t ∈ a.root.packages.flatten.filterMap Def.box?) :
    .box t ∈ a.root.types := by
  obtain ⟨d, hd, e⟩ := List.mem_filterMap.1 h
  cases d with
  | box n => cases e; exact hs.known _ (occurs_self hd)
  | _ => cases e

theorem nodup_on {α : Type} {β : Type} {f : α → β} : ∀ {L : List α}, L.Nodup → (∀ x ∈ L, ∀ y ∈ L, f x = f y → x = y) → (L.map f).Nodup :=
  fun h hf => h.map_on hf

/-- C92. No native function is declared twice in Kotlin, if functions and methods have different names (C83) and every
class and box is defined in one crate. Missing: boxes that occur in several crates (`C92_box_twice_broken`). -/
theorem C92_declared_once_partial (a : Api) (hs : a.root.Sound) (ho : a.OneCrate)
    (h : (a.fns.map fun f => Gen.Names.jniMethod f.crate f.kind f.name).Nodup) : (a.kotlin.map fun d => d.1.name).Nodup := by
  have e1 : (fun d : Native × List String => d.1.name) = Native.name ∘ Prod.fst := rfl
  rw [e1, ← List.map_map]
  unfold Api.kotlin
  simp only [List.map_append (f := Prod.fst)]
  have nc : (((a.root.packages.flatten.filterMap Def.cls?).flatMap a.clsKt).map Prod.fst |>.map Native.name).Nodup ∧
      ∀ x ∈ ((a.root.packages.flatten.filterMap Def.cls?).flatMap a.clsKt).map Prod.fst, Good x ∧ group x ∈ [0] := by
    rw [List.map_flatMap]
    refine names_num _ a.root.id (fun _ => [.clone, .free]) (fun _ => by decide) ?_ [0] ?_
    · exact nodup_on ho.1 fun x hx y _ e => id_inj (cls_known hs hx) e
    · intro r s hs i
      simp only [List.mem_cons, List.not_mem_nil, or_false] at hs
      rcases hs with rfl | rfl <;> simp [group]
  have nb : (((a.root.packages.flatten.filterMap Def.box?).flatMap a.boxKt).map Prod.fst |>.map Native.name).Nodup ∧
      ∀ x ∈ ((a.root.packages.flatten.filterMap Def.box?).flatMap a.boxKt).map Prod.fst, Good x ∧ group x ∈ [1] := by
    rw [List.map_flatMap]
    refine names_num _ (fun t => a.root.id (.box t)) (fun _ => [.fromValues, .intoInner]) (fun _ => by decide) ?_ [1] ?_
    · exact nodup_on ho.2 fun x hx y _ e => by
        have := id_inj (box_known hs hx) e
        cases this
        rfl
    · intro r s hs i
      simp only [List.mem_cons, List.not_mem_nil, or_false] at hs
      rcases hs with rfl | rfl <;> simp [group]
  have nf : ((a.fns.map fnKt).map Prod.fst |>.map Native.name).Nodup ∧
      ∀ x ∈ (a.fns.map fnKt).map Prod.fst, Good x ∧ group x ∈ [11] := by
    have e : (a.fns.map fnKt).map Prod.fst = (a.fns.map fnRs).map Prod.fst := by
      rw [List.map_map, List.map_map]; rfl
    rw [e]
    exact fns_names a h
  have ns := sync_names a _ (firsts_nodup a a.kotlinSync []).1
  have na := kotlinAsync_names a _ (firsts_nodup a a.kotlinAsync []).1
  have nr := rustAsync_names a _ (firsts_nodup a a.rustAsync []).1
  rw [List.map_flatMap, ← funext fun r => (sync_fst a r).2, ← List.map_flatMap] at ns
  rw [List.map_flatMap, ← funext fun r => (async_fst a r).2, ← List.map_flatMap] at na
  have er : ∀ L : List Result, (L.flatMap a.rustAsyncRs).map Prod.fst = (L.flatMap a.rustAsyncKt).map Prod.fst := by
    intro L
    rw [List.map_flatMap, List.map_flatMap]
    rfl
  rw [er] at nr
  have nbuf := buffer_good.1
  rw [← buffer_good.2] at nbuf
  have nl : (([(Native.leftover, ["kotlin.Long", "kotlin.Int"])].map Prod.fst).map Native.name).Nodup ∧
      ∀ x ∈ [(Native.leftover, ["kotlin.Long", "kotlin.Int"])].map Prod.fst, Good x ∧ group x ∈ [12] := by
    refine ⟨List.nodup_singleton _, ?_⟩
    intro x hx
    rw [List.map_singleton, List.mem_singleton] at hx
    subst hx
    exact ⟨trivial, .head _⟩
  exact (names_append (names_append (names_append (names_append (names_append (names_append (names_append nbuf nf (by decide))
    nc (by decide)) nb (by decide)) ns (by decide)) nr (by decide)) na (by decide)) nl (by decide)).1

theorem place_lt {a : Api} (hf : a.Fits) {o : Option Ty} (h : ∀ t, o = some t → t ∈ a.root.types) : a.place o < 1000000000 := by
  cases o with
  | none => exact Nat.zero_lt_of_lt (by decide : 0 < 1000000000)
  | some t =>
    have : a.root.id t < a.root.types.eraseDups.length := List.idxOf_lt_length_of_mem (by simpa using h t rfl)
    have hf' : a.root.types.eraseDups.length < 999999999 := hf
    show a.root.id t + 1 < _
    omega

theorem place_inj {a : Api} {o o' : Option Ty} (h : ∀ t, o = some t → t ∈ a.root.types) (e : a.place o = a.place o') :
    o = o' := by
  cases o with
  | none => cases o' with
    | none => rfl
    | some t => exact absurd e (Nat.succ_ne_zero _).symm
  | some t => cases o' with
    | none => exact absurd e (Nat.succ_ne_zero _)
    | some u => rw [id_inj (h t rfl) (Nat.succ.inj e)]

/-- C92. Results that get the same number, so that they share native functions, are the same. -/
theorem C92_results (a : Api) (hf : a.Fits) (r r' : Result) (h : r.Known a) (h' : r'.Known a)
    (e : a.resultId r = a.resultId r') : r = r' := by
  have l := place_lt hf h.1
  have l' := place_lt hf h'.1
  unfold Api.resultId at e
  have e1 : a.place r.ret = a.place r'.ret := by omega
  have e2 : a.place r.throws = a.place r'.throws := by omega
  obtain ⟨x, y⟩ := r
  obtain ⟨x', y'⟩ := r'
  rw [show x = x' from place_inj h.1 e1, show y = y' from place_inj h.2 e2]

/-- C92. `uniffiKotlinFutureComplete` is declared, but Rust exports no function for it. -/
theorem C92_leftover_broken (a : Api) : (∃ d ∈ a.kotlin, d.1 = .leftover) ∧
    ∀ e ∈ a.rust, e.1.symbol ≠ lookedFor "uniffi/Scaffolding".toList Native.leftover.name := by
  constructor
  · exact ⟨_, List.mem_append_right _ (.head _), rfl⟩
  · intro e he h
    have hg := rust_good a _ (List.mem_map_of_mem he)
    rw [symbol_looked .leftover trivial] at h
    have h1 := List.append_cancel_left h
    have h2 := name_group hg (y := .leftover) trivial h1
    have h3 : group e.1 ≠ 12 := by
      have := rust_group a _ (List.mem_map_of_mem (f := Prod.fst) he)
      intro h
      rw [h] at this
      exact absurd this (by decide)
    exact h3 h2

/-! ### Cases -/

/-- A name. -/
def nm (s : String) : Name := ⟨"m", s⟩

/-- An object with an async method, an error, a box and a trait implemented in Kotlin. -/
def shop : Root where
  types := [.iface (nm "Cart"), .string, .enum (nm "Err"), .record (nm "R"), .box (.record (nm "R")), .int .i32]
  packages := [[.cls (nm "Cart"), .enum (nm "Err") true [[], []], .record (nm "R") [.int .i32, .string], .box (.record (nm "R"))]]
  rustFns := [⟨[], some (.box (.record (nm "R"))), some (.enum (nm "Err"))⟩]
  kotlinFns := [⟨[], some (.record (nm "R")), some (.enum (nm "Err"))⟩]
  foreign := fun _ => false
  ffi := fun t => if t = .record (nm "R") then some [.int32, .string]
    else if t = .enum (nm "Err") then some [.int32, .string] else none

theorem shop_sound : shop.Sound where
  known := by decide +kernel
  defined := by decide +kernel
  single := by decide +kernel
  options := by
    intro t ht
    simp only [Root.all, shop, List.flatten_cons, List.flatten_nil, List.append_nil, List.mem_cons, List.not_mem_nil,
      reduceCtorEq, or_false] at ht

/-- Its native functions. -/
def api : Api where
  root := shop
  fns := [⟨"crate".toList, .function, "get_cart".toList, [.int64, .string]⟩, ⟨"crate".toList, .function, "drop".toList, []⟩]
  kotlinSync := [⟨some (.record (nm "R")), some (.enum (nm "Err"))⟩, ⟨some (.record (nm "R")), some (.enum (nm "Err"))⟩]
  rustAsync := [⟨some .string, none⟩, ⟨none, none⟩]
  kotlinAsync := [⟨none, some (.enum (nm "Err"))⟩]

example : api.root.Sound := shop_sound
example : api.OneCrate := by
  constructor
  · show [Ty.iface (nm "Cart")].Nodup
    exact List.nodup_singleton _
  · show [Ty.record (nm "R")].Nodup
    exact List.nodup_singleton _
example : api.Fits := by
  show api.root.types.eraseDups.length < _
  decide +kernel
example : ∀ r ∈ api.kotlinSync ++ api.rustAsync ++ api.kotlinAsync, r.Known api := by
  simp only [api, List.cons_append, List.nil_append, List.mem_cons, List.not_mem_nil, or_false, forall_eq_or_imp, forall_eq,
    Result.Known, reduceCtorEq, Option.some.injEq, forall_eq', IsEmpty.forall_iff, implies_true, and_true, true_and]
  decide +kernel
example : (api.fns.map fun f => Gen.Names.jniMethod f.crate f.kind f.name).Nodup := by decide +kernel
example : api.rust.length = 24 ∧ api.kotlin.length = 25 := by decide +kernel
example : ("setCallbackReturn3000000004".toList, ["kotlin.Long", "Int", "String?"]) ∈
    api.kotlin.map fun d => (d.1.name, d.2) := by decide +kernel
example : "Java_uniffi_Scaffolding_setCallbackReturn3000000004".toList ∈ api.rust.map (fun e => e.1.symbol) := by
  decide +kernel
example : lookedFor "uniffi/Scaffolding".toList "a_b".toList = "Java_uniffi_Scaffolding_a_1b".toList := by decide +kernel

/-- Two crates with the same box. -/
def twice : Api where
  root := { shop with packages := shop.packages ++ [[.box (.record (nm "R"))]] }
  fns := []
  kotlinSync := []
  rustAsync := []
  kotlinAsync := []

theorem twice_sound : twice.root.Sound where
  known := by decide +kernel
  defined := by decide +kernel
  single := by decide +kernel
  options := by
    intro t ht
    simp only [Root.all, twice, shop, List.flatten_cons, List.flatten_nil, List.append_nil, List.mem_cons, List.not_mem_nil,
      reduceCtorEq, or_false, List.cons_append, List.nil_append] at ht

/-- C92. A box that occurs in two crates is declared twice in one Kotlin object, which does not compile. Rust exports its
functions once. -/
theorem C92_box_twice_broken : twice.root.Sound ∧ ¬ (twice.kotlin.map fun d => d.1.name).Nodup ∧
    (twice.rust.map fun e => e.1.symbol).Nodup :=
  ⟨twice_sound, by decide +kernel, C92_once _ List.nodup_nil⟩

end Verif.Props.JniNatives
