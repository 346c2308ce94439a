import Verif.Jni.LookupLemmas
/-
C91. The Kotlin functions that Rust looks up to put results, errors and boxed values together are found.
-/
namespace Verif.Props.JniLookup
open Verif.Jni Verif.Jni.Calls Verif.Jni.Lookup

theorem append_cancel {p a b : String} (h : p ++ a = p ++ b) : a = b := by
  have := congrArg String.toList h
  simp only [String.toList_append] at this
  exact String.toList_inj.1 (List.append_cancel_left this)

theorem varName_inj {r : Root} {t u : Ty} (h : varName r t = varName r u) : r.id t = r.id u := by
  unfold varName at h
  exact toString_inj (append_cancel h)

theorem used_wanted {r : Root} {t : Ty} (h : t ∈ used r) : t ∈ wanted r := by
  simp only [used, wanted, List.mem_append, List.mem_flatMap] at h ⊢
  rcases h with ⟨c, hc, h⟩ | ⟨d, hd, h⟩
  · exact .inl ⟨c, .inl hc, h⟩
  · exact .inr ⟨d, keep_subset r _ _ d hd, h⟩

theorem used_occurs {r : Root} {t : Ty} (h : t ∈ wanted r) : r.Occurs t := by
  simp only [wanted, List.mem_append, List.mem_flatMap] at h
  rcases h with ⟨c, hc, h⟩ | ⟨d, hd, h⟩
  · refine occurs_call (List.mem_append.2 hc) ?_
    simp only [Callable.types, List.mem_append]
    rcases h with h | h
    · exact .inl (.inr (List.mem_filter.1 h).1)
    · exact .inr h
  · refine occurs_inside (d := d) hd ?_
    cases d <;> simp_all [Def.inside]

/-- Every variable that Rust code uses to call Kotlin is defined exactly once, and for the type that is meant. -/
theorem C91_variables (r : Root) (hs : r.Sound) (t : Ty) (ht : t ∈ used r) :
    t ∈ statics r ∧ ((statics r).map (varName r)).count (varName r t) = 1 := by
  have hw := used_wanted ht
  have hm : t ∈ statics r := by
    have : r.id t ∈ (statics r).map r.id := (firsts_ids _ _ _).2 ⟨List.mem_map_of_mem hw, by simp⟩
    obtain ⟨u, hu, e⟩ := List.mem_map.1 this
    have hu' := hs.known u (used_occurs (firsts_mem _ _ _ hu))
    exact id_inj hu' e ▸ hu
  refine ⟨hm, List.count_eq_one_of_mem ?_ (List.mem_map_of_mem hm)⟩
  have hn : ((statics r).map r.id).Nodup := firsts_nodup _ _
  rw [List.Nodup, List.pairwise_map] at hn ⊢
  exact hn.imp fun h e => h (varName_inj e)

/-- The parameters are looked up with the descriptors of the types that they are declared with. -/
theorem C91_params (f : Ffi) : (paramDescriptor (ffiKt f)).map String.toList = some (ffiSig f) := by
  cases f <;> decide +kernel

/-- Each value is passed in the member of the union that the virtual machine reads for its descriptor. -/
theorem C91_fields (f : Ffi) : ffiSig f = [(jvalueField f).toUpper] ∧ jvalueField f ≠ 'l' ∨
    (∃ s, (ffiSig f = 'L' :: s ∨ ffiSig f = '[' :: s)) ∧ jvalueField f = 'l' := by
  cases f with
  | int8 | int16 | int32 | int64 | float32 | float64 | boolean => exact .inl (by decide +kernel)
  | string => exact .inr ⟨⟨"java/lang/String;".toList, .inl (by decide +kernel)⟩, rfl⟩
  | byteBuffer => exact .inr ⟨⟨"java/nio/ByteBuffer;".toList, .inl (by decide +kernel)⟩, rfl⟩
  | byteArray => exact .inr ⟨⟨['B'], .inr (by decide +kernel)⟩, rfl⟩
  | shortArray => exact .inr ⟨⟨['S'], .inr (by decide +kernel)⟩, rfl⟩
  | intArray => exact .inr ⟨⟨['I'], .inr (by decide +kernel)⟩, rfl⟩
  | longArray => exact .inr ⟨⟨['J'], .inr (by decide +kernel)⟩, rfl⟩
  | floatArray => exact .inr ⟨⟨['F'], .inr (by decide +kernel)⟩, rfl⟩
  | doubleArray => exact .inr ⟨⟨['D'], .inr (by decide +kernel)⟩, rfl⟩

theorem params_all (ffi : List Ffi) (ret : Str) :
    methodDescriptor (ffi.map ffiKt) ret = some ('(' :: ffi.flatMap ffiSig ++ ')' :: ret) := by
  have : ∃ ps, (ffi.map ffiKt).mapM paramDescriptor = some ps ∧ ps.flatMap String.toList = ffi.flatMap ffiSig := by
    induction ffi with
    | nil => exact ⟨[], rfl, rfl⟩
    | cons f ffi ih =>
      obtain ⟨ps, h1, h2⟩ := ih
      obtain ⟨p, hp, e⟩ := Option.map_eq_some_iff.1 (C91_params f)
      exact ⟨p :: ps, by simp [List.mapM_cons, h1, hp], by simp [h2, e]⟩
  obtain ⟨ps, h1, h2⟩ := this
  simp [methodDescriptor, h1, h2]

/-- For which types the Kotlin function is looked up with the signature that it has. Missing for the full property: the
others, which `_broken` theorems below are about, and custom types. -/
theorem C91_signature_partial (N : Names) (hN : N.Ok) (t : Ty) (hc : ∀ n b, core t ≠ .custom n b) (ffi : List Ffi) :
    methodDescriptor (ffi.map ffiKt) (descriptor N false t) = some (liftSig N ffi t) ↔ Fit t := by
  rw [params_all, liftSig, ← fit_iff hN hc]
  simp only [Option.some.injEq, List.cons.injEq, List.append_cancel_left_eq, true_and, List.cons_append]
  exact eq_comm

/-- A type with another number of FFI values than one is not primitive. -/
theorem not_primitive {r : Root} {t : Ty} (h : r.one t = false) : ¬ Primitive t := by
  have hs : ∀ l, standard t = some l → l.length ≠ 1 := by
    intro l hl
    simp only [Root.one, FfiMap.get, hl, Option.any_some, beq_eq_false_iff_ne] at h
    exact h
  intro hp
  cases t with
  | int i => cases i <;> exact hs _ rfl rfl
  | f32 | f64 | bool | box u => exact hs _ rfl rfl
  | _ => simp [Primitive, core, depth] at hp

theorem object_of {N : Names} {t : Ty} (h : Fit t) (hp : ¬ Primitive t) : (descriptor N false t).head? = some 'L' := by
  rw [descriptor_core, Bool.false_or]
  have h1 : core t ≠ .string ∧ core t ≠ .bytes ∧ ∀ n b, core t ≠ .custom n b := by
    rcases h with (⟨u, e⟩ | ⟨a, b, e⟩ | ⟨u, e⟩) | h
    · simp [e]
    · simp [e]
    · simp [e]
    · exact h.1
  have h5 := core_not t
  have hb : decide (0 < depth t) = true ∨ ¬ ((∃ i, core t = .int i) ∨ core t = .f32 ∨ core t = .f64 ∨ core t = .bool) := by
    by_cases h0 : depth t = 0
    · exact .inr fun h => hp ⟨h0, h⟩
    · exact .inl (by simp; omega)
  generalize decide (0 < depth t) = b at *
  generalize core t = u at *
  cases u with
  | int i =>
    rcases hb with rfl | hb
    · cases i
      · exact (by decide +kernel : "Lkotlin/UByte;".toList.head? = some 'L')
      · exact (by decide +kernel : "Ljava/lang/Byte;".toList.head? = some 'L')
      · exact (by decide +kernel : "Lkotlin/UShort;".toList.head? = some 'L')
      · exact (by decide +kernel : "Ljava/lang/Short;".toList.head? = some 'L')
      · exact (by decide +kernel : "Lkotlin/UInt;".toList.head? = some 'L')
      · exact (by decide +kernel : "Ljava/lang/Integer;".toList.head? = some 'L')
      · exact (by decide +kernel : "Lkotlin/ULong;".toList.head? = some 'L')
      · exact (by decide +kernel : "Ljava/lang/Long;".toList.head? = some 'L')
    · exact absurd (.inl ⟨i, rfl⟩) hb
  | f32 =>
    rcases hb with rfl | hb
    · exact (by decide +kernel : "Ljava/lang/Float;".toList.head? = some 'L')
    · simp at hb
  | f64 =>
    rcases hb with rfl | hb
    · exact (by decide +kernel : "Ljava/lang/Double;".toList.head? = some 'L')
    · simp at hb
  | bool =>
    rcases hb with rfl | hb
    · exact (by decide +kernel : "Ljava/lang/Boolean;".toList.head? = some 'L')
    · simp at hb
  | string => exact absurd rfl h1.1
  | bytes => exact absurd rfl h1.2.1
  | custom n b => exact absurd rfl (h1.2.2 n b)
  | option u => exact absurd rfl (h5.2 u)
  | box u => exact absurd rfl (h5.1 u)
  | seq u => exact (by decide +kernel : "Ljava/util/List;".toList.head? = some 'L')
  | map k v => exact (by decide +kernel : "Ljava/util/Map;".toList.head? = some 'L')
  | set u => exact (by decide +kernel : "Ljava/util/Set;".toList.head? = some 'L')
  | duration => exact (by decide +kernel : "Ljava/time/Duration;".toList.head? = some 'L')
  | timestamp => exact (by decide +kernel : "Ljava/time/Instant;".toList.head? = some 'L')
  | _ => rfl

theorem fit_custom {t : Ty} (h : Fit t) : ∀ n b, core t ≠ .custom n b := by
  rcases h with (⟨u, e⟩ | ⟨a, b, e⟩ | ⟨u, e⟩) | h
  · simp [e]
  · simp [e]
  · simp [e]
  · exact h.1.2.2

/-- The function is looked up with the signature that it has, and the call expects an object where one is returned.
Missing for the full property: types that are not `Fit`, and primitive types in boxes. -/
theorem C91_found_partial (r : Root) (hs : r.Sound) (N : Names) (hN : N.Ok) (t : Ty) (ht : t ∈ used r) (hf : Fit t)
    (hb : .box t ∈ r.all → ¬ Primitive t) (hc : ∀ c ∈ r.rustFns, c.throws = some t → ¬ Primitive t) (ffi : List Ffi) :
    t ∈ statics r ∧ ((statics r).map (varName r)).count (varName r t) = 1 ∧
      methodDescriptor (ffi.map ffiKt) (descriptor N false t) = some (liftSig N ffi t) ∧
      (descriptor N false t).head? = some 'L' := by
  obtain ⟨h1, h2⟩ := C91_variables r hs t ht
  refine ⟨h1, h2, ?_, object_of hf ?_⟩
  · exact (C91_signature_partial N hN t (fit_custom hf) ffi).2 hf
  · simp only [used, List.mem_append, List.mem_flatMap] at ht
    rcases ht with ⟨c, hcm, ht | ht⟩ | ⟨d, hd, ht⟩
    · exact not_primitive (r := r) (by simpa using (List.mem_filter.1 ht).2)
    · exact hc c hcm (by simpa using ht)
    · refine hb ?_
      have := (defs_iff hs d).1 hd
      cases d <;> simp_all

/-! ### An interface that meets the hypotheses -/

/-- A name in a crate. -/
def nm (s : String) : Name := ⟨"m", s⟩

/-- Packages and classes as they are by default. -/
def names : Names where
  pkg n := "uniffi.".toList ++ (n.ns.toList.filter fun c => c ≠ '.' ∧ c ≠ '`')
  cls t := match t with
    | .record n | .enum n | .iface n | .callback n | .custom n _ => n.name.toList.filter fun c => c ≠ '.' ∧ c ≠ '`'
    | _ => []

theorem names_ok : names.Ok where
  pkg n := by
    intro h
    have h2 : "uniffi.".toList <+: names.pkg n := List.prefix_append _ _
    rcases List.prefix_or_prefix_of_prefix h h2 with h | h
    · exact absurd h (by decide +kernel)
    · exact absurd h (by decide +kernel)
  cls t c hc := by
    have key : ∀ n : Name, c ∈ (n.name.toList.filter fun c => c ≠ '.' ∧ c ≠ '`') → c ≠ '.' ∧ c ≠ '`' := by
      intro n h
      simpa using (List.mem_filter.1 h).2
    cases t <;> first | exact key _ hc | cases hc

/-- A function that returns a record or an error and one that returns a number that may be missing; a boxed record. -/
def shop : Root where
  types := [.record (nm "R"), .int .i32, .string, .enum (nm "Err"), .option (.int .u64), .int .u64, .box (.record (nm "R"))]
  packages := [[.record (nm "R") [.int .i32, .string], .enum (nm "Err") true [[], []], .optional (.int .u64),
    .box (.record (nm "R"))]]
  rustFns := [⟨[], some (.record (nm "R")), some (.enum (nm "Err"))⟩, ⟨[], some (.option (.int .u64)), none⟩]
  kotlinFns := []
  foreign := fun _ => false
  ffi := fun t => if t = .option (.int .u64) then some [.boolean, .int64] else if t = .record (nm "R") then some [.int32, .string]
    else if t = .enum (nm "Err") then some [.int32, .string] else none

theorem shop_sound : shop.Sound where
  known := by decide +kernel
  defined := by decide +kernel
  single := by decide +kernel
  options := by
    intro t ht
    simp only [Root.all, shop, List.flatten_cons, List.flatten_nil, List.append_nil, List.mem_cons, List.not_mem_nil,
      reduceCtorEq, Def.optional.injEq, false_or, or_false] at ht
    subst ht
    exact fun _ => ⟨[.int64], by decide +kernel, by decide +kernel⟩

example : used shop = [.record (nm "R"), .enum (nm "Err"), .option (.int .u64), .record (nm "R")] := by decide +kernel

example : ∀ t ∈ used shop, Fit t ∧ (.box t ∈ shop.all → ¬ Primitive t) ∧
    (∀ c ∈ shop.rustFns, c.throws = some t → ¬ Primitive t) := by
  have e : used shop = [.record (nm "R"), .enum (nm "Err"), .option (.int .u64), .record (nm "R")] := by decide +kernel
  rw [e]
  intro t ht
  simp only [List.mem_cons, List.not_mem_nil, or_false] at ht
  rcases ht with rfl | rfl | rfl | rfl
  · exact ⟨.inr (by simp [core, depth]), fun _ => by simp [Primitive, core], fun _ _ _ => by simp [Primitive, core]⟩
  · exact ⟨.inr (by simp [core, depth]), fun _ => by simp [Primitive, core], fun _ _ _ => by simp [Primitive, core]⟩
  · exact ⟨.inr (by simp [core, depth]), fun _ => by simp [Primitive, depth], fun _ _ _ => by simp [Primitive, depth]⟩
  · exact ⟨.inr (by simp [core, depth]), fun _ => by simp [Primitive, core], fun _ _ _ => by simp [Primitive, core]⟩

example : liftSig names [.int32, .string] (.record (nm "R")) = "(ILjava/lang/String;)Luniffi/m/R;".toList := by decide +kernel
example : liftSig names [.boolean, .int64] (.option (.int .u64)) = "(ZJ)Lkotlin/ULong;".toList := by decide +kernel

example : Fit (.option (.box (.option (.seq .string)))) := .inl (.inl ⟨_, rfl⟩)
example : ¬ Fit (.option (.int .i32)) := by simp [Fit, Collection, core, depth]
example : ¬ Fit (.option (.option (.record (nm "R")))) := by simp [Fit, Collection, core, depth]

/-! ### Functions that are not found -/

/-- A function that returns an optional custom type over a string, and boxes with a string, bytes, an optional `i32`, a
number and an option of an option in them. -/
def bad : Root where
  types := [.option (.custom (nm "Url") .string), .custom (nm "Url") .string, .string, .box .string, .box .bytes, .bytes,
    .box (.option (.int .i32)), .option (.int .i32), .int .i32, .box (.int .i32), .option (.option .bool), .option .bool, .bool]
  packages := [[.optional (.custom (nm "Url") .string), .custom (nm "Url") .string, .box .string, .box .bytes,
    .box (.option (.int .i32)), .optional (.int .i32), .box (.int .i32), .optional (.option .bool), .optional .bool]]
  rustFns := [⟨[], some (.option (.custom (nm "Url") .string)), none⟩, ⟨[], some (.option (.option .bool)), none⟩]
  kotlinFns := []
  foreign := fun _ => false
  ffi := fun t => if t = .option (.custom (nm "Url") .string) then some [.boolean, .string]
    else if t = .custom (nm "Url") .string then some [.string]
    else if t = .option (.option .bool) then some [.boolean, .int64] else none

theorem bad_sound : bad.Sound where
  known := by decide +kernel
  defined := by decide +kernel
  single := by decide +kernel
  options := by
    intro t ht
    simp only [Root.all, bad, List.flatten_cons, List.flatten_nil, List.append_nil, List.mem_cons, List.not_mem_nil,
      reduceCtorEq, Def.optional.injEq, false_or, or_false] at ht
    rcases ht with rfl | rfl | rfl | rfl
    · exact fun _ => ⟨[.string], by decide +kernel, by decide +kernel⟩
    · intro h; cases h
    · exact fun _ => ⟨[.int64], by decide +kernel, by decide +kernel⟩
    · intro h; cases h

/-- A function that returns an option of a custom type over a string: Rust asks for a function that returns the class
`Url`, but there is only an alias of that name, and the function returns a string. -/
theorem C91_custom_broken : ∃ t ∈ used bad, liftSig names [.boolean, .string] t = "(ZLjava/lang/String;)Luniffi/m/Url;".toList ∧
    methodDescriptor ([Ffi.boolean, .string].map ffiKt) (descriptor names false t) =
      some "(ZLjava/lang/String;)Ljava/lang/String;".toList :=
  ⟨.option (.custom (nm "Url") .string), by decide +kernel, by decide +kernel, by decide +kernel⟩

/-- The result of a function that returns an option of an option: Rust asks for a class `kotlin/Boolean?`. -/
theorem C91_nested_option_broken : ∃ t ∈ used bad, liftSig names [.boolean, .int64] t = "(ZJ)Lkotlin/Boolean?;".toList ∧
    methodDescriptor ([Ffi.boolean, .int64].map ffiKt) (descriptor names false t) = some "(ZJ)Ljava/lang/Boolean;".toList :=
  ⟨.option (.option .bool), by decide +kernel, by decide +kernel, by decide +kernel⟩

/-- A boxed string, boxed bytes and a boxed optional `i32`: Rust asks for results of classes that do not exist. -/
theorem C91_box_broken :
    (.string ∈ used bad ∧ liftSig names [.string] .string = "(Ljava/lang/String;)Lkotlin/String;".toList ∧
      descriptor names false .string = "Ljava/lang/String;".toList) ∧
    (.bytes ∈ used bad ∧ liftSig names [.byteArray] .bytes = "([B)Lkotlin/ByteArray;".toList ∧
      descriptor names false .bytes = "[B".toList) ∧
    (.option (.int .i32) ∈ used bad ∧ liftSig names [.int64] (.option (.int .i32)) = "(J)Ljava/lang/Int;".toList ∧
      descriptor names false (.option (.int .i32)) = "Ljava/lang/Integer;".toList) := by
  decide +kernel

/-- A boxed number: the function is found, but it returns a number and is called as one that returns an object. -/
theorem C91_box_primitive_broken : .int .i32 ∈ used bad ∧ liftSig names [.int32] (.int .i32) = "(I)I".toList ∧
    descriptor names false (.int .i32) = ['I'] := by
  decide +kernel

end Verif.Props.JniLookup
