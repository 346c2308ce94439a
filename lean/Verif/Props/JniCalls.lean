import Verif.Jni.CallsLemmas
import Verif.Jni.CallsSpec
import Verif.Props.JniFfi
/-
C90. Every conversion function that generated Kotlin and JNI code calls is defined exactly once.
-/
namespace Verif.Props.JniCalls
open Verif.Jni Verif.Jni.Calls

/-- No two conversion functions of a side have the same name, whatever the interface. -/
theorem C90_unique (r : Root) (s : Side) : (runtime s ++ r.made s).Nodup := nodup_all r s

/-- For each type of the interface and each conversion, the function by which callers call it is defined once if the
conversion exists, and otherwise not at all. -/
theorem C90_exact (r : Root) (hs : r.Sound) (s : Side) (op : Op) (t : Ty) (ht : r.Occurs t) :
    (r.Has s op t → (runtime s ++ r.made s).count (fnName s op (r.id t) t) = 1) ∧
    (¬ r.Has s op t → (runtime s ++ r.made s).count (fnName s op (r.id t) t) = 0) :=
  ⟨fun h => List.count_eq_one_of_mem (nodup_all r s) ((exists_iff hs ht).2 h),
    fun h => List.count_eq_zero_of_not_mem fun hm => h ((exists_iff hs ht).1 hm)⟩

/-- Two types of the interface never share a function, nor do two conversions; but in Rust bytes and lists of `u8` are the
same type. -/
theorem C90_apart (r : Root) (hs : r.Sound) (s : Side) (op op' : Op) (t t' : Ty) (ht : r.Occurs t)
    (h : fnName s op (r.id t) t = fnName s op' (r.id t') t') :
    op = op' ∧ (t = t' ∨ s = .rs ∧ t ∈ [.bytes, .seq (.int .u8)] ∧ t' ∈ [.bytes, .seq (.int .u8)]) := by
  unfold fnName at h
  cases hn : runtimeFor s op t with
  | none =>
    cases hn' : runtimeFor s op' t' with
    | none =>
      simp only [hn, hn'] at h
      obtain ⟨h1, h2⟩ := mk_inj (stem_mem s op) (stem_mem s op') h
      exact ⟨stem_inj h1, .inl (id_inj (hs.known t ht) h2)⟩
    | some n =>
      simp only [hn, hn'] at h
      exact absurd (h ▸ runtimeFor_mem hn') (mk_not_runtime (stem_mem s op))
  | some n =>
    cases hn' : runtimeFor s op' t' with
    | none =>
      simp only [hn, hn'] at h
      exact absurd (h ▸ runtimeFor_mem hn) (mk_not_runtime (stem_mem s op'))
    | some n' =>
      simp only [hn, hn'] at h
      have := runtimeUses_apart s _ (runtimeFor_uses hn) _ (runtimeFor_uses hn') h
      simpa [sameUse, and_assoc] using this

/-- All that is called is defined exactly once, if callback interfaces, bytes and errors sent as a message only stand
where they are supported. Missing for the full property: the cases of `C90_…_broken`. -/
theorem C90_calls_partial (r : Root) (hs : r.Sound) (hp : r.Plain) (s : Side) :
    ∀ x ∈ r.called s, (runtime s ++ r.made s).count x = 1 := by
  intro x hx
  refine List.count_eq_one_of_mem (nodup_all r s) ?_
  simp only [Root.called, List.mem_append, List.mem_flatMap, List.mem_map] at hx
  rcases hx with (⟨d, hd, ⟨op, t⟩, hm, rfl⟩ | ⟨c, hc, hx⟩) | ⟨c, hc, hx⟩
  · have hd' := (defs_iff hs d).1 hd
    have hin : t ∈ d.inside := by
      cases d with
      | enum n f vs => cases f <;> simp_all [Def.parts, Def.inside] <;> aesop
      | optional u =>
        simp only [Def.parts] at hm
        split at hm
        · simp_all [Def.inside]; aesop
        · split at hm <;> simp_all [Def.inside] <;> aesop
      | _ => simp_all [Def.parts, Def.inside] <;> aesop
    have ho := occurs_inside hd' hin
    obtain ⟨i1, i2, i3⟩ := hp.inside d hd' t hin
    refine (exists_iff hs ho).2 (plain_has hs hp ho ?_ (fun h => absurd h i1) (fun h => absurd h i2))
    intro h
    obtain ⟨u, rfl⟩ := i3 h
    simp [Def.parts] at hm
    rcases hm with ⟨rfl, -⟩ | ⟨rfl, -⟩ <;> simp
  · have hco : c ∈ r.rustFns ++ r.kotlinFns := List.mem_append_left _ hc
    simp only [Root.rustCalls, List.mem_append, List.mem_map] at hx
    rcases hx with ⟨a, ha, rfl⟩ | ⟨t, ht, rfl⟩
    · have ho : r.Occurs a.ty := occurs_call hco (by simp [Callable.types]; exact .inl ⟨a, ha, rfl⟩)
      have hplain : fnName s (match s with | .rs => .lift | .kt => .lower) (r.id a.ty) a.ty ∈ runtime s ++ r.made s := by
        refine (exists_iff hs ho).2 (plain_has hs hp ho ?_ ?_ (fun h => absurd h (hp.rustArgs c hc a ha)))
        · cases s <;> simp
        · cases s <;> simp
      have href : ∀ n, a.ty = .iface n → refName s (r.foreign n) (r.id a.ty) ∈ runtime s ++ r.made s := by
        intro n hn
        rw [hn] at ho ⊢
        exact List.mem_append_right _ (ref_made hs ho)
      unfold Root.argName
      dsimp only
      split
      · rename_i n hn hb
        split
        · rename_i hf
          have := href n hn
          rwa [hf] at this
        · split
          · rename_i hf _
            have := href n hn
            rwa [(by simpa using hf : r.foreign n = true)] at this
          · exact hplain
      · refine List.mem_append_left _ ?_
        cases s
        · dsimp only
          split <;> decide +kernel
        · exact (by decide +kernel : "lowerBytesRef" ∈ runtime .kt)
      · exact hplain
    · have ht' : t ∈ c.ret.toList ++ c.throws.toList := List.mem_append.2 ht
      have ho : r.Occurs t := occurs_call hco (by simp only [Callable.types, List.append_assoc]; exact List.mem_append_right _ ht')
      refine (exists_iff hs ho).2 (plain_has hs hp ho ?_ (fun h => absurd h (hp.rustResults c hc t ht')) ?_)
      · cases s <;> simp
      · cases s <;> simp
  · have hco : c ∈ r.rustFns ++ r.kotlinFns := List.mem_append_right _ hc
    simp only [Root.kotlinCalls, List.mem_append, List.mem_map] at hx
    rcases hx with ⟨a, ha, rfl⟩ | ⟨t, ht, rfl⟩
    · have ho : r.Occurs a.ty := occurs_call hco (by simp [Callable.types]; exact .inl ⟨a, ha, rfl⟩)
      refine (exists_iff hs ho).2 (plain_has hs hp ho ?_ (fun h => absurd h (hp.kotlinArgs c hc a ha)) ?_)
      · cases s <;> simp
      · cases s <;> simp
    · have ht' : t ∈ c.ret.toList ++ c.throws.toList := List.mem_append.2 ht
      have ho : r.Occurs t := occurs_call hco (by simp only [Callable.types, List.append_assoc]; exact List.mem_append_right _ ht')
      refine (exists_iff hs ho).2 (plain_has hs hp ho ?_ ?_ (fun h => absurd h (hp.kotlinResults c hc t ht')))
      · cases s <;> simp
      · cases s <;> simp

/-- The condition on options in `Sound` holds for the FFI types that the generator computes. -/
theorem C90_options (nss : List (List TypeDef)) (r : Root) (h : ffiTypes nss = some r.ffi)
    (hn : Verif.Props.JniLayout.DistinctNames nss) (t : Ty) (ht : TypeDef.optional t ∈ nss.flatten) (ho : optionFfi t = none) :
    ∃ l, r.ffi.get t = some l ∧ r.ffi (.option t) = some (.boolean :: l) := by
  obtain ⟨m0, m1, ha, l0, l1⟩ := Verif.Props.JniFfi.ffiTypes_spec h hn _ ht
  simp only [FfiMap.addDef, standard, ho, Option.bind_eq_bind, Option.bind_eq_some_iff, Option.some.injEq] at ha
  obtain ⟨l, hl, rfl⟩ := ha
  exact ⟨l, l0.get _ _ hl, l1 _ _ (by simp [FfiMap.insert])⟩

/-! ### An interface that meets the hypotheses -/

/-- A name in a crate. -/
def nm (s : String) : Name := ⟨"m", s⟩

/-- A record with a number, a string that may be missing and a list of enums; an enum; an error sent as a message; an
object passed by reference; a callback interface as an argument. -/
def demo : Root where
  types := [.record (nm "R"), .int .i32, .option .string, .string, .seq (.enum (nm "E")), .enum (nm "E"), .enum (nm "Err"), .iface (nm "O"),
    .callback (nm "Cb"), .bytes, .option (.int .u64), .int .u64]
  packages := [[.record (nm "R") [.int .i32, .option .string, .seq (.enum (nm "E"))], .enum (nm "E") false [[], [.option (.int .u64)]],
    .enum (nm "Err") true [[], []], .cls (nm "O"), .callback (nm "Cb"), .optional .string, .seq (.enum (nm "E")), .optional (.int .u64)]]
  rustFns := [⟨[⟨.record (nm "R"), false, false, false⟩, ⟨.callback (nm "Cb"), false, false, false⟩], some (.record (nm "R")),
    some (.enum (nm "Err"))⟩, ⟨[⟨.iface (nm "O"), true, false, true⟩, ⟨.bytes, true, false, false⟩], some .bytes, none⟩]
  kotlinFns := [⟨[⟨.record (nm "R"), false, false, false⟩], some (.option .string), none⟩]
  foreign := fun _ => false
  ffi := fun t => if t = .option (.int .u64) then some [.boolean, .int64] else none

theorem demo_sound : demo.Sound where
  known := by decide +kernel
  defined := by decide +kernel
  single := by decide +kernel
  options := by
    intro t ht
    simp only [Root.all, demo, List.flatten_cons, List.flatten_nil, List.append_nil, List.mem_cons, List.not_mem_nil,
      reduceCtorEq, Def.optional.injEq, false_or, or_false] at ht
    rcases ht with rfl | rfl
    · intro h; cases h
    · intro _; exact ⟨[.int64], by decide +kernel, by decide +kernel⟩

theorem demo_message (t : Ty) : demo.Message t ↔ t = .enum (nm "Err") := by
  constructor
  · rintro ⟨n, vs, rfl, h⟩
    simp [Root.all, demo] at h
    rw [h.1]
  · rintro rfl
    exact ⟨nm "Err", [[], []], rfl, by decide +kernel⟩

theorem isCallback_iff (t : Ty) : IsCallback t ↔ (match t with | .callback _ => true | _ => false) = true := by
  cases t <;> simp [IsCallback]

theorem demo_plain : demo.Plain where
  inside := by
    intro d hd t ht
    rw [isCallback_iff, demo_message]
    have h : ∀ d ∈ demo.all, ∀ t ∈ d.inside, ¬ (match t with | .callback _ => true | _ => false) = true ∧
      t ≠ .enum (nm "Err") ∧ t ≠ .bytes := by decide +kernel
    obtain ⟨h1, h2, h3⟩ := h d hd t ht
    exact ⟨h1, h2, fun h => absurd h h3⟩
  options := by
    intro t ht
    simp only [Root.all, demo, List.flatten_cons, List.flatten_nil, List.append_nil, List.mem_cons, List.not_mem_nil,
      reduceCtorEq, Def.optional.injEq, false_or, or_false] at ht
    rcases ht with rfl | rfl <;> decide +kernel
  rustArgs := by simp only [demo_message]; decide +kernel
  rustResults := by simp only [isCallback_iff]; decide +kernel
  kotlinArgs := by simp only [isCallback_iff]; decide +kernel
  kotlinResults := by simp only [demo_message]; decide +kernel

example : ∀ x ∈ demo.called .rs, (runtime .rs ++ demo.made .rs).count x = 1 := C90_calls_partial demo demo_sound demo_plain .rs
example : demo.Occurs (.record (nm "R")) ∧ demo.Occurs .bytes := by constructor <;> (unfold Root.Occurs; decide +kernel)
example : (demo.called .kt).length > 20 := by decide +kernel
example : "lift_object_ref_7" ∈ demo.called .rs ∧ "lower_type_6" ∈ demo.called .rs ∧ "lowerType8" ∈ demo.called .kt := by
  decide +kernel
example : ¬ demo.Has .rs .lift (.enum (nm "Err")) := by
  intro h
  have := h.2.2.1 ((demo_message _).2 rfl)
  simp at this

/-! ### Interfaces for which functions are missing -/

/-- A record, enum, custom type, option, list, map or set with bytes inside: `write` and `read` of bytes are called and
nowhere defined, on both sides. -/
theorem C90_bytes_broken (r : Root) (hs : r.Sound) (d : Def) (hd : d ∈ r.all) (hb : .bytes ∈ d.inside)
    (hx : ∀ u, d ≠ .box u) (s : Side) (op : Op) (hop : op = .write ∨ op = .read) :
    fnName s op (r.id .bytes) .bytes ∈ r.called s ∧ (runtime s ++ r.made s).count (fnName s op (r.id .bytes) .bytes) = 0 := by
  constructor
  · simp only [Root.called, List.mem_append, List.mem_flatMap, List.mem_map]
    refine .inl (.inl ⟨d, (defs_iff hs d).2 hd, (op, .bytes), ?_, rfl⟩)
    cases d with
    | enum n f vs => cases f <;> rcases hop with rfl | rfl <;> simp_all [Def.parts, Def.inside]
    | box u => exact absurd rfl (hx u)
    | _ => rcases hop with rfl | rfl <;> simp_all [Def.parts, Def.inside]
  · refine (C90_exact r hs s op .bytes (occurs_inside hd hb)).2 fun h => ?_
    rcases hop with rfl | rfl <;> simpa using h.1 rfl

/-- A callback interface inside another value: Rust calls `write` for it and Kotlin `read`, which are nowhere defined. -/
theorem C90_callback_broken (r : Root) (hs : r.Sound) (d : Def) (hd : d ∈ r.all) (n : Name) (hb : .callback n ∈ d.inside)
    (hx : ∀ u, d ≠ .box u) (s : Side) (op : Op) (hop : op = match s with | .rs => .write | .kt => .read) :
    fnName s op (r.id (.callback n)) (.callback n) ∈ r.called s ∧
      (runtime s ++ r.made s).count (fnName s op (r.id (.callback n)) (.callback n)) = 0 := by
  constructor
  · simp only [Root.called, List.mem_append, List.mem_flatMap, List.mem_map]
    refine .inl (.inl ⟨d, (defs_iff hs d).2 hd, (op, .callback n), ?_, rfl⟩)
    cases d with
    | enum n f vs => cases f <;> cases s <;> subst hop <;> simp_all [Def.parts, Def.inside]
    | box u => exact absurd rfl (hx u)
    | _ => cases s <;> subst hop <;> simp_all [Def.parts, Def.inside]
  · refine (C90_exact r hs s op _ (occurs_inside hd hb)).2 fun h => ?_
    have := h.2.1 ⟨n, rfl⟩
    cases s <;> subst hop <;> simp at this

/-- A method implemented in Kotlin that throws an error sent as a message: Rust calls a `lift` and Kotlin a `lower` that
are nowhere defined. -/
theorem C90_throws_broken (r : Root) (hs : r.Sound) (c : Callable) (hc : c ∈ r.kotlinFns) (t : Ty) (ht : c.throws = some t)
    (hm : r.Message t) (s : Side) :
    ∃ x ∈ r.called s, (runtime s ++ r.made s).count x = 0 := by
  refine ⟨fnName s (match s with | .rs => .lift | .kt => .lower) (r.id t) t, ?_, ?_⟩
  · simp only [Root.called, List.mem_append, List.mem_flatMap]
    refine .inr ⟨c, hc, ?_⟩
    simp only [Root.kotlinCalls, List.mem_append, List.mem_map]
    exact .inr ⟨t, .inr (by simp [ht]), by cases s <;> rfl⟩
  · refine (C90_exact r hs s _ t (occurs_call (List.mem_append_right _ hc) (by simp [Callable.types, ht]))).2 fun h => ?_
    have := h.2.2.1 hm
    cases s <;> simp at this

/-- An argument that is an option of a record without fields: an option of such a value is passed as its flag alone, so
that no `lower` and `lift` are generated, but they are called. -/
theorem C90_empty_broken (r : Root) (hs : r.Sound) (c : Callable) (hc : c ∈ r.rustFns) (a : Arg) (ha : a ∈ c.args) (n : Name)
    (ht : a.ty = .option (.record n)) (he : r.ffi.get (.record n) = some []) (s : Side) :
    ∃ x ∈ r.called s, (runtime s ++ r.made s).count x = 0 := by
  have ho : r.Occurs a.ty := occurs_call (List.mem_append_left _ hc) (by simp [Callable.types]; exact .inl ⟨a, ha, rfl⟩)
  rw [ht] at ho
  have hd : Def.optional (.record n) ∈ r.all := by
    rcases hs.defined _ ho with hb | ⟨d, hd, h⟩
    · cases hb
    · cases d <;> simp only [Def.self, reduceCtorEq] at h
      cases h
      exact hd
  refine ⟨r.argName s a, ?_, ?_⟩
  · simp only [Root.called, List.mem_append, List.mem_flatMap]
    exact .inl (.inr ⟨c, hc, by simp only [Root.rustCalls, List.mem_append, List.mem_map]; exact .inl ⟨a, ha, rfl⟩⟩)
  · have e : r.argName s a = fnName s (match s with | .rs => .lift | .kt => .lower) (r.id (.option (.record n))) (.option (.record n)) := by
      cases s <;> simp [Root.argName, ht]
    rw [e]
    refine (C90_exact r hs s _ _ ho).2 fun h => ?_
    obtain ⟨l, hl, hf⟩ := hs.options _ hd rfl
    rw [he] at hl
    cases hl
    rcases h.2.2.2 _ rfl (by cases s <;> simp) with h | ⟨m, h⟩ | h
    · exact h
    · cases h
    · exact h .boolean (by simpa [FfiMap.get, standard, optionFfi] using hf)

/-- Each of the four at once. -/
def bad : Root where
  types := [.record (nm "R"), .bytes, .seq (.callback (nm "Cb")), .callback (nm "Cb"), .enum (nm "Err"), .option (.record (nm "U")), .record (nm "U")]
  packages := [[.record (nm "R") [.bytes], .seq (.callback (nm "Cb")), .callback (nm "Cb"), .enum (nm "Err") true [[]], .optional (.record (nm "U")),
    .record (nm "U") []]]
  rustFns := [⟨[⟨.option (.record (nm "U")), false, false, false⟩], none, none⟩]
  kotlinFns := [⟨[], none, some (.enum (nm "Err"))⟩]
  foreign := fun _ => false
  ffi := fun t => if t = .option (.record (nm "U")) then some [.boolean] else if t = .record (nm "U") then some [] else none

theorem bad_sound : bad.Sound where
  known := by decide +kernel
  defined := by decide +kernel
  single := by decide +kernel
  options := by
    intro t ht
    simp only [Root.all, bad, List.flatten_cons, List.flatten_nil, List.append_nil, List.mem_cons, List.not_mem_nil,
      reduceCtorEq, Def.optional.injEq, false_or, or_false] at ht
    subst ht
    exact fun _ => ⟨[], by decide +kernel, by decide +kernel⟩

example : "write_type_1" ∈ bad.called .rs ∧ (runtime .rs ++ bad.made .rs).count "write_type_1" = 0 :=
  C90_bytes_broken bad bad_sound (.record (nm "R") [.bytes]) (by decide +kernel) (by decide +kernel) (by simp) .rs .write (.inl rfl)
example : "readType3" ∈ bad.called .kt ∧ (runtime .kt ++ bad.made .kt).count "readType3" = 0 :=
  C90_callback_broken bad bad_sound (.seq (.callback (nm "Cb"))) (by decide +kernel) (nm "Cb") (by decide +kernel) (by simp) .kt .read rfl
example : ∃ x ∈ bad.called .rs, (runtime .rs ++ bad.made .rs).count x = 0 :=
  C90_throws_broken bad bad_sound ⟨[], none, some (.enum (nm "Err"))⟩ (by simp [bad]) (.enum (nm "Err")) rfl
    ⟨nm "Err", [[]], rfl, by decide +kernel⟩ .rs
example : ∃ x ∈ bad.called .kt, (runtime .kt ++ bad.made .kt).count x = 0 :=
  C90_empty_broken bad bad_sound ⟨[⟨.option (.record (nm "U")), false, false, false⟩], none, none⟩ (by simp [bad]) _
    (List.mem_singleton.2 rfl) (nm "U") rfl (by decide +kernel) .kt

end Verif.Props.JniCalls
