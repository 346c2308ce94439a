import Verif.Jni.CallsSpec
import Mathlib.Data.List.Basic
import Mathlib.Data.List.Nodup
import Mathlib.Data.List.Pairwise
/-
Lemmas for C90: names with numbers, the definitions that are kept, and which functions they make.
-/
namespace Verif.Jni.Calls
open Verif.Jni
open Verif.Wire (IntTy)

/-! ### Names -/

/-- The part of a name before the first digit. -/
def stemOf (s : String) : List Char := s.toList.takeWhile fun c => !c.isDigit

theorem takeWhile_stem : ∀ (a b : List Char), (∀ c ∈ a, c.isDigit = false) → (∀ c ∈ b, c.isDigit = true) →
    (a ++ b).takeWhile (fun c => !c.isDigit) = a
  | [], [], _, _ => rfl
  | [], c :: b, _, hb => by simp [hb c (by simp)]
  | c :: a, b, ha, hb => by
    simp [ha c (by simp), takeWhile_stem a b (fun d hd => ha d (by simp [hd])) hb]

theorem toString_digits (n : Nat) : ∀ c ∈ (toString n).toList, c.isDigit = true := by
  intro c hc
  rw [Nat.toString_eq_repr, Nat.toList_repr] at hc
  exact Nat.isDigit_of_mem_toDigits (by decide) (by decide) hc

theorem stemOf_append (st : String) (n : Nat) (h : ∀ c ∈ st.toList, c.isDigit = false) :
    stemOf (st ++ toString n) = st.toList := by
  unfold stemOf
  rw [String.toList_append]
  exact takeWhile_stem _ _ h (toString_digits n)

theorem toString_inj {a b : Nat} (h : toString a = toString b) : a = b := by
  have h2 := congrArg String.toList h
  rw [Nat.toString_eq_repr, Nat.toString_eq_repr, Nat.toList_repr, Nat.toList_repr] at h2
  have h3 := congrArg (fun l => Nat.ofDigitChars 10 l 0) h2
  simpa [Nat.ofDigitChars_ten_toDigits] using h3

/-- The beginnings of the names that are generated. -/
def stems : Side → List String
  | .rs => ["lower_type_", "lift_type_", "write_type_", "read_type_", "lift_object_ref_", "lift_object_receiver_ref_"]
  | .kt => ["lowerType", "liftType", "writeType", "readType", "lowerObjectRef", "lowerObjectReceiverRef"]

theorem stems_plain (s : Side) : ∀ st ∈ stems s, ∀ c ∈ st.toList, c.isDigit = false := by
  cases s <;> decide +kernel

theorem mk_inj {s : Side} {st st' : String} {a b : Nat} (h1 : st ∈ stems s) (h2 : st' ∈ stems s)
    (h : st ++ toString a = st' ++ toString b) : st = st' ∧ a = b := by
  have e := congrArg stemOf h
  rw [stemOf_append _ _ (stems_plain s _ h1), stemOf_append _ _ (stems_plain s _ h2)] at e
  have e2 : st = st' := String.toList_inj.1 e
  refine ⟨e2, ?_⟩
  subst e2
  have := congrArg String.toList h
  rw [String.toList_append, String.toList_append] at this
  exact toString_inj (String.toList_inj.1 (List.append_cancel_left this))

theorem runtime_stems (s : Side) : ∀ n ∈ runtime s, ∀ st ∈ stems s, stemOf n ≠ st.toList := by
  cases s <;> decide +kernel

theorem mk_not_runtime {s : Side} {st : String} {a : Nat} (h1 : st ∈ stems s) : st ++ toString a ∉ runtime s := by
  intro h
  exact runtime_stems s _ h st h1 (stemOf_append _ _ (stems_plain s _ h1))

theorem runtime_nodup (s : Side) : (runtime s).Nodup := by cases s <;> decide +kernel

theorem stem_mem (s : Side) (op : Op) : stem s op ∈ stems s := by cases s <;> cases op <;> decide +kernel

theorem stem_inj {s : Side} {op op' : Op} (h : stem s op = stem s op') : op = op' := by
  cases s <;> cases op <;> cases op' <;> first | rfl | (exact absurd h (by decide +kernel))

/-- What the names for references begin with. -/
def refStem : Side → Bool → String
  | .rs, true => "lift_object_receiver_ref_"
  | .rs, false => "lift_object_ref_"
  | .kt, true => "lowerObjectReceiverRef"
  | .kt, false => "lowerObjectRef"

theorem refName_eq (s : Side) (f : Bool) (i : Nat) : refName s f i = refStem s f ++ toString i := by
  cases s <;> cases f <;> simp [refName, refStem]

theorem refStem_mem (s : Side) (f : Bool) : refStem s f ∈ stems s := by cases s <;> cases f <;> decide +kernel

theorem refStem_ne (s : Side) (f : Bool) (op : Op) : refStem s f ≠ stem s op := by
  cases s <;> cases f <;> cases op <;> decide +kernel

/-! ### Functions of the runtime -/

theorem scalar_some {s : Side} {t : Ty} {n : String} (h : scalar s t = some n) :
    (∃ i, t = .int i) ∨ t = .f32 ∨ t = .f64 ∨ t = .bool ∨ t = .string := by
  cases s <;> cases t <;> simp_all [scalar]

/-- The types of `scalar`. -/
def scalars : List Ty :=
  [.int .i8, .int .i16, .int .i32, .int .i64, .int .u8, .int .u16, .int .u32, .int .u64, .f32, .f64, .bool, .string]

theorem scalar_mem {s : Side} {t : Ty} {n : String} (h : scalar s t = some n) : t ∈ scalars := by
  rcases scalar_some h with ⟨i, rfl⟩ | rfl | rfl | rfl | rfl
  · cases i <;> simp [scalars]
  all_goals simp [scalars]

theorem runtime_table : ∀ s ∈ [Side.rs, Side.kt], ∀ op ∈ [Op.lower, Op.lift, Op.write, Op.read],
    ∀ t ∈ .bytes :: scalars, ∀ u ∈ [t, .option t, .seq t], ∀ n ∈ (runtimeFor s op u).toList, n ∈ runtime s := by
  decide +kernel

theorem runtimeFor_cases {s : Side} {op : Op} {t : Ty} {n : String} (h : runtimeFor s op t = some n) :
    ∃ u ∈ Ty.bytes :: scalars, t ∈ [u, .option u, .seq u] := by
  have plain : ∀ {u}, (scalar s u).map (runtimeName s op "") = some n →
      ∃ v ∈ Ty.bytes :: scalars, u ∈ [v, .option v, .seq v] := by
    intro u hu
    obtain ⟨m, hm, -⟩ := Option.map_eq_some_iff.1 hu
    exact ⟨u, List.mem_cons_of_mem _ (scalar_mem hm), by simp⟩
  have lo : op = .lower ∨ op = .lift → ∃ u ∈ Ty.bytes :: scalars, t ∈ [u, .option u, .seq u] := by
    intro ho
    cases t with
    | bytes => exact ⟨.bytes, by simp, by simp⟩
    | option i =>
      have h' : (optionScalar s i).map (runtimeName s op "option") = some n := by rcases ho with rfl | rfl <;> exact h
      obtain ⟨m, hm, -⟩ := Option.map_eq_some_iff.1 h'
      unfold optionScalar at hm
      split at hm
      · cases hm
      · cases hm
      · exact ⟨_, List.mem_cons_of_mem _ (scalar_mem hm), by simp⟩
    | seq i =>
      have h' : (seqScalar s i).map (runtimeName s op "vec") = some n := by rcases ho with rfl | rfl <;> exact h
      obtain ⟨m, hm, -⟩ := Option.map_eq_some_iff.1 h'
      unfold seqScalar at hm
      split at hm
      · cases hm
      · cases hm
      · exact ⟨_, List.mem_cons_of_mem _ (scalar_mem hm), by simp⟩
    | _ => exact plain (by rcases ho with rfl | rfl <;> exact h)
  cases op with
  | lower => exact lo (.inl rfl)
  | lift => exact lo (.inr rfl)
  | write => exact plain h
  | read => exact plain h

/-- The conversions of the runtime and the types they are for. -/
def runtimeUses (s : Side) : List (String × Op × Ty) :=
  (Ty.bytes :: scalars).flatMap fun t => [t, .option t, .seq t].flatMap fun u =>
    [Op.lower, .lift, .write, .read].flatMap fun op => (runtimeFor s op u).toList.map fun n => (n, op, u)

/-- A function is used for one type, but in Rust bytes are a list of `u8`. -/
def sameUse (s : Side) (a b : Op × Ty) : Bool :=
  a.1 == b.1 && (a.2 == b.2 || (s == .rs && (a.2 == .bytes || a.2 == .seq (.int .u8)) && (b.2 == .bytes || b.2 == .seq (.int .u8))))

theorem runtimeUses_pairs : ∀ s ∈ [Side.rs, Side.kt],
    (runtimeUses s).Pairwise fun a b => a.1 = b.1 → sameUse s a.2 b.2 = true := by
  decide +kernel

theorem runtimeUses_apart (s : Side) (a : String × Op × Ty) (ha : a ∈ runtimeUses s) (b : String × Op × Ty)
    (hb : b ∈ runtimeUses s) : a.1 = b.1 → sameUse s a.2 b.2 = true := by
  have : Std.Symm fun a b : String × Op × Ty => a.1 = b.1 → sameUse s a.2 b.2 = true := ⟨by
    intro a b h e
    have := h e.symm
    simp only [sameUse, Bool.and_eq_true, Bool.or_eq_true, beq_iff_eq] at this ⊢
    obtain ⟨h1, h2⟩ := this
    refine ⟨h1.symm, ?_⟩
    rcases h2 with h2 | ⟨⟨h2, h3⟩, h4⟩
    · exact .inl h2.symm
    · exact .inr ⟨⟨h2, h4⟩, h3⟩⟩
  exact List.Pairwise.forall_of_forall (fun _ _ _ => by simp [sameUse]) (runtimeUses_pairs s (by cases s <;> simp)) ha hb

theorem runtimeFor_uses {s : Side} {op : Op} {t : Ty} {n : String} (h : runtimeFor s op t = some n) :
    (n, op, t) ∈ runtimeUses s := by
  obtain ⟨u, h1, h2⟩ := runtimeFor_cases h
  simp only [runtimeUses, List.mem_flatMap, List.mem_map]
  exact ⟨u, h1, t, h2, op, by cases op <;> simp, n, by simp [h], rfl⟩

theorem runtimeFor_mem {s : Side} {op : Op} {t : Ty} {n : String} (h : runtimeFor s op t = some n) :
    n ∈ runtime s := by
  obtain ⟨u, h1, h2⟩ := runtimeFor_cases h
  exact runtime_table s (by cases s <;> simp) op (by cases op <;> simp) u h1 t h2 n (by simp [h])

/-! ### Definitions -/

theorem optionScalar_known {s : Side} {t : Ty} {n : String} (h : optionScalar s t = some n) : KnownOption t := by
  cases s <;> cases t with
  | int i => cases i <;> simp_all [optionScalar, scalar, KnownOption]
  | _ => simp_all [optionScalar, scalar, KnownOption]

theorem known_one (r : Root) {t : Ty} (h : KnownOption t) : r.one (.option t) = true := by
  cases t with
  | int i => cases i <;> simp_all [KnownOption, Root.one, FfiMap.get, standard, optionFfi]
  | _ => simp_all [KnownOption, Root.one, FfiMap.get, standard, optionFfi]

theorem known_runtime (s : Side) {op : Op} {t : Ty} (h : KnownOption t) (ho : op = .lower ∨ op = .lift) :
    (runtimeFor s op (.option t)).isSome := by
  cases t with
  | int i => cases i <;> cases s <;> rcases ho with rfl | rfl <;> simp_all [KnownOption, runtimeFor, optionScalar, scalar]
  | _ => cases s <;> rcases ho with rfl | rfl <;> simp_all [KnownOption, runtimeFor, optionScalar, scalar]

theorem seqScalar_iff (s : Side) (t : Ty) : (seqScalar s t).isSome = isPrimitiveArray t := by
  cases s <;> cases t with
  | int i => cases i <;> rfl
  | _ => rfl

/-- No definition makes a function of the runtime. -/
theorem ops_numbered {r : Root} {s : Side} {d : Def} {op : Op} (h : op ∈ d.ops r s) :
    runtimeFor s op d.self = none := by
  cases d with
  | optional t =>
    cases hx : runtimeFor s op (.option t) with
    | none => exact hx
    | some n =>
      exfalso
      cases op with
      | lower | lift =>
        obtain ⟨m, hm, -⟩ := Option.map_eq_some_iff.1 hx
        have hk := optionScalar_known hm
        have h1 := known_one r hk
        simp only [Def.ops, h1] at h
        cases t <;> simp_all [isIface, KnownOption]
      | write | read => cases s <;> simp [runtimeFor, scalar] at hx
  | seq t =>
    cases hx : runtimeFor s op (.seq t) with
    | none => exact hx
    | some n =>
      exfalso
      cases op with
      | lower | lift =>
        obtain ⟨m, hm, -⟩ := Option.map_eq_some_iff.1 hx
        have := seqScalar_iff s t
        rw [hm] at this
        simp [Def.ops, ← this] at h
      | write | read => cases s <;> simp [runtimeFor, scalar] at hx
  | _ => cases op <;> cases s <;> rfl

theorem makes_iff {r : Root} {s : Side} {d : Def} {x : String} (h : x ∈ d.makes r s) :
    (∃ op ∈ d.ops r s, x = stem s op ++ toString (r.id d.self)) ∨
      ∃ n, d = .cls n ∧ x = refStem s (r.foreign n) ++ toString (r.id d.self) := by
  simp only [Def.makes, List.mem_append, List.mem_map] at h
  rcases h with ⟨op, ho, rfl⟩ | h
  · exact .inl ⟨op, ho, by rw [fnName, ops_numbered ho]; rfl⟩
  · cases d <;> simp at h
    exact .inr ⟨_, rfl, by rw [h, refName_eq]⟩

theorem makes_form {r : Root} {s : Side} {d : Def} {x : String} (h : x ∈ d.makes r s) :
    ∃ st ∈ stems s, x = st ++ toString (r.id d.self) := by
  rcases makes_iff h with ⟨op, -, rfl⟩ | ⟨n, -, rfl⟩
  · exact ⟨_, stem_mem s op, rfl⟩
  · exact ⟨_, refStem_mem s _, rfl⟩

theorem ops_nodup (r : Root) (s : Side) (d : Def) : (d.ops r s).Nodup := by
  cases d with
  | optional t => simp only [Def.ops]; split <;> [skip; split] <;> decide
  | seq t => simp only [Def.ops]; split <;> decide
  | enum n f vs => cases f <;> cases s <;> simp [Def.ops]
  | callback n => cases s <;> simp [Def.ops]
  | _ => simp [Def.ops]

theorem makes_nodup (r : Root) (s : Side) (d : Def) : (d.makes r s).Nodup := by
  have h1 : ((d.ops r s).map fun op => fnName s op (r.id d.self) d.self).Nodup := by
    refine List.Nodup.map_on ?_ (ops_nodup r s d)
    intro a ha b hb e
    rw [fnName, fnName, ops_numbered ha, ops_numbered hb] at e
    exact stem_inj (mk_inj (stem_mem s a) (stem_mem s b) e).1
  unfold Def.makes
  cases d with
  | cls n =>
    refine List.Nodup.append h1 (by simp) ?_
    intro x hx hy
    simp only [List.mem_singleton] at hy
    obtain ⟨op, ho, rfl⟩ := List.mem_map.1 hx
    rw [fnName, ops_numbered ho, refName_eq] at hy
    exact refStem_ne s _ op (mk_inj (stem_mem s op) (refStem_mem s _) hy).1.symm
  | _ => simpa using h1

/-! ### Definitions that are kept -/

theorem keep_subset (r : Root) : ∀ (seen : List Nat) (l : List Def), ∀ d ∈ r.keep seen l, d ∈ l
  | _, [], d, h => by simp [Root.keep] at h
  | seen, e :: l, d, h => by
    unfold Root.keep at h
    split at h
    · exact List.mem_cons_of_mem _ (keep_subset r seen l d h)
    · rcases List.mem_cons.1 h with rfl | h
      · simp
      · exact List.mem_cons_of_mem _ (keep_subset r _ l d h)

theorem keep_fresh (r : Root) : ∀ (seen : List Nat) (l : List Def), ∀ d ∈ r.keep seen l, r.id d.self ∉ seen
  | _, [], d, h => by simp [Root.keep] at h
  | seen, e :: l, d, h => by
    unfold Root.keep at h
    split at h
    · exact keep_fresh r seen l d h
    · rcases List.mem_cons.1 h with rfl | h
      · assumption
      · exact fun hm => keep_fresh r _ l d h (List.mem_cons_of_mem _ hm)

theorem keep_pairwise (r : Root) : ∀ (seen : List Nat) (l : List Def),
    (r.keep seen l).Pairwise fun a b => r.id a.self ≠ r.id b.self
  | _, [] => by simp [Root.keep]
  | seen, e :: l => by
    unfold Root.keep
    split
    · exact keep_pairwise r seen l
    · refine List.Pairwise.cons ?_ (keep_pairwise r _ l)
      intro b hb he
      exact keep_fresh r _ l b hb (by simp [he])

theorem keep_complete (r : Root) : ∀ (seen : List Nat) (l : List Def), ∀ d ∈ l,
    r.id d.self ∈ seen ∨ ∃ d' ∈ r.keep seen l, r.id d'.self = r.id d.self
  | _, [], d, h => by simp at h
  | seen, e :: l, d, h => by
    unfold Root.keep
    split
    · rename_i hs
      rcases List.mem_cons.1 h with rfl | h
      · exact .inl hs
      · exact keep_complete r seen l d h
    · rcases List.mem_cons.1 h with rfl | h
      · exact .inr ⟨_, by simp, rfl⟩
      · rcases keep_complete r (r.id e.self :: seen) l d h with h | ⟨d', h1, h2⟩
        · rcases List.mem_cons.1 h with h | h
          · exact .inr ⟨e, by simp, h.symm⟩
          · exact .inl h
        · exact .inr ⟨d', List.mem_cons_of_mem _ h1, h2⟩

theorem id_inj {r : Root} {t u : Ty} (ht : t ∈ r.types) (h : r.id t = r.id u) : t = u :=
  (List.idxOf_inj (by simpa using ht)).1 h

theorem occurs_self {r : Root} {d : Def} (h : d ∈ r.all) : r.Occurs d.self :=
  List.mem_append_left _ (List.mem_flatMap.2 ⟨d, h, by simp⟩)

theorem occurs_inside {r : Root} {d : Def} (h : d ∈ r.all) {t : Ty} (ht : t ∈ d.inside) : r.Occurs t :=
  List.mem_append_left _ (List.mem_flatMap.2 ⟨d, h, by simp [ht]⟩)

theorem occurs_call {r : Root} {c : Callable} (h : c ∈ r.rustFns ++ r.kotlinFns) {t : Ty} (ht : t ∈ c.types) :
    r.Occurs t := List.mem_append_right _ (List.mem_flatMap.2 ⟨c, h, ht⟩)

/-- Every definition is kept. -/
theorem defs_iff {r : Root} (hs : r.Sound) (d : Def) : d ∈ r.defs ↔ d ∈ r.all := by
  refine ⟨keep_subset r _ _ d, fun h => ?_⟩
  rcases keep_complete r [] r.packages.flatten d h with h' | ⟨d', h1, h2⟩
  · simp at h'
  · have h3 := keep_subset r _ _ d' h1
    have := id_inj (hs.known _ (occurs_self h3)) h2
    rw [← hs.single d' h3 d h this]
    exact h1

theorem nodup_all (r : Root) (s : Side) : (runtime s ++ r.made s).Nodup := by
  refine List.Nodup.append (runtime_nodup s) ?_ ?_
  · unfold Root.made
    refine List.nodup_flatMap.2 ⟨fun d _ => makes_nodup r s d, ?_⟩
    refine (keep_pairwise r [] r.packages.flatten).imp ?_
    intro a b hab x hx hy
    obtain ⟨st, h1, rfl⟩ := makes_form hx
    obtain ⟨st', h2, e⟩ := makes_form hy
    exact hab (mk_inj h1 h2 e).2
  · intro x hx hy
    obtain ⟨d, -, hd⟩ := List.mem_flatMap.1 hy
    obtain ⟨st, h1, rfl⟩ := makes_form hd
    exact mk_not_runtime h1 hx

/-- The function for a conversion is made exactly if the definition of the type makes it. -/
theorem numbered_made {r : Root} (hs : r.Sound) {s : Side} {op : Op} {t : Ty} (ht : t ∈ r.types) :
    numbered s op (r.id t) ∈ r.made s ↔ ∃ d ∈ r.all, d.self = t ∧ op ∈ d.ops r s := by
  constructor
  · intro h
    obtain ⟨d, hd, hx⟩ := List.mem_flatMap.1 h
    have ha := (defs_iff hs d).1 hd
    rcases makes_iff hx with ⟨op', ho, e⟩ | ⟨n, -, e⟩
    · obtain ⟨e1, e2⟩ := mk_inj (stem_mem s op) (stem_mem s op') e
      cases stem_inj e1
      exact ⟨d, ha, (id_inj ht e2).symm, ho⟩
    · exact absurd (mk_inj (stem_mem s op) (refStem_mem s _) e).1.symm (refStem_ne s _ op)
  · rintro ⟨d, ha, rfl, ho⟩
    refine List.mem_flatMap.2 ⟨d, (defs_iff hs d).2 ha, ?_⟩
    refine List.mem_append_left _ (List.mem_map.2 ⟨op, ho, ?_⟩)
    rw [fnName, ops_numbered ho]

theorem ref_made {r : Root} (hs : r.Sound) {s : Side} {n : Name} (ho : r.Occurs (.iface n)) :
    refName s (r.foreign n) (r.id (.iface n)) ∈ r.made s := by
  rcases hs.defined _ ho with h | ⟨d, hd, he⟩
  · simp [builtin] at h
  · refine List.mem_flatMap.2 ⟨d, (defs_iff hs d).2 hd, ?_⟩
    cases d <;> simp [Def.self] at he
    subst he
    exact List.mem_append_right _ (by simp [Def.self])

/-! ### Which conversions exist -/

theorem one_iff (r : Root) (t : Ty) : r.one t = false ↔ ∀ x, r.ffi.get t ≠ some [x] := by
  unfold Root.one
  cases r.ffi.get t with
  | none => simp
  | some l =>
    match l with
    | [] => simp
    | [a] => simp
    | a :: b :: l => simp

theorem runtime_has {r : Root} {s : Side} {op : Op} {t : Ty} {n : String} (h : runtimeFor s op t = some n) :
    r.Has s op t := by
  refine ⟨?_, ?_, ?_, ?_⟩
  · rintro rfl
    cases op <;> cases s <;> simp_all [runtimeFor, scalar]
  · rintro ⟨m, rfl⟩
    cases op <;> cases s <;> simp_all [runtimeFor, scalar]
  · rintro ⟨m, vs, rfl, -⟩
    cases op <;> cases s <;> simp_all [runtimeFor, scalar]
  · rintro u rfl ho
    left
    have h' : (optionScalar s u).map (runtimeName s op "option") = some n := by rcases ho with rfl | rfl <;> exact h
    obtain ⟨m, hm, -⟩ := Option.map_eq_some_iff.1 h'
    exact optionScalar_known hm

theorem ops_has {r : Root} (hs : r.Sound) {s : Side} {op : Op} {d : Def} (hd : d ∈ r.all)
    (hn : runtimeFor s op d.self = none) : op ∈ d.ops r s ↔ r.Has s op d.self := by
  cases d with
  | optional t =>
    have h1 : r.Has s op (.option t) ↔ (op = .lower ∨ op = .lift →
        KnownOption t ∨ (∃ n, t = .iface n) ∨ ∀ x, r.ffi.get (.option t) ≠ some [x]) := by
      constructor
      · exact fun h => h.2.2.2 t rfl
      · intro h
        refine ⟨by simp, (by rintro ⟨n, h⟩; cases h), (by rintro ⟨n, vs, h, -⟩; cases h), ?_⟩
        rintro u e ho
        cases e
        exact h ho
    rw [Def.self, h1, ← one_iff]
    have h2 : (∃ n, t = .iface n) ↔ isIface t = true := by cases t <;> simp [isIface]
    rw [h2]
    have h3 : op = .lower ∨ op = .lift → ¬ KnownOption t := by
      intro ho hk
      have := known_runtime s hk ho
      rw [Def.self] at hn
      simp [hn] at this
    by_cases c1 : r.one (.option t) = false
    · cases op <;> simp [Def.ops, c1]
    · by_cases c2 : isIface t = true
      · cases op <;> simp [Def.ops, c1, c2]
      · cases op <;> simp_all [Def.ops]
  | seq t =>
    have h1 : r.Has s op (.seq t) := by
      refine ⟨by simp, (by rintro ⟨n, h⟩; cases h), (by rintro ⟨n, vs, h, -⟩; cases h), by simp⟩
    simp only [Def.self, h1, iff_true]
    have := seqScalar_iff s t
    cases op with
    | lower | lift =>
      simp only [Def.self, runtimeFor, Option.map_eq_none_iff] at hn
      rw [hn] at this
      simp [Def.ops, ← this]
    | write | read => simp [Def.ops]
  | enum n f vs =>
    have h1 : r.Message (.enum n) ↔ f = true := by
      constructor
      · rintro ⟨n', vs', h, hm⟩
        cases h
        have := hs.single _ hd _ hm rfl
        simp_all
      · rintro rfl
        exact ⟨n, vs, rfl, hd⟩
    have h2 : r.Has s op (.enum n) ↔
        (f = true → match (generalizing := false) s with | .rs => op = .lower ∨ op = .write | .kt => op = .lift ∨ op = .read) := by
      rw [← h1]
      exact ⟨fun h => h.2.2.1, fun h => ⟨by simp, (by rintro ⟨n, h⟩; cases h), h, by simp⟩⟩
    rw [Def.self, h2]
    cases f <;> cases s <;> cases op <;> simp [Def.ops]
  | callback n =>
    have h2 : r.Has s op (.callback n) ↔
        (match (generalizing := false) s with | .rs => op = .lift ∨ op = .read | .kt => op = .lower ∨ op = .write) :=
      ⟨fun h => h.2.1 ⟨n, rfl⟩, fun h => ⟨by simp, fun _ => h, (by rintro ⟨n, vs, h, -⟩; cases h), by simp⟩⟩
    rw [Def.self, h2]
    cases s <;> cases op <;> simp [Def.ops]
  | _ =>
    refine iff_of_true (by cases op <;> simp [Def.ops])
      ⟨by simp [Def.self], (by rintro ⟨n, h⟩; cases h), (by rintro ⟨n, vs, h, -⟩; cases h), by simp [Def.self]⟩

theorem exists_iff {r : Root} (hs : r.Sound) {s : Side} {op : Op} {t : Ty} (ht : r.Occurs t) :
    fnName s op (r.id t) t ∈ runtime s ++ r.made s ↔ r.Has s op t := by
  cases hr : runtimeFor s op t with
  | some n =>
    refine iff_of_true (List.mem_append_left _ ?_) (runtime_has hr)
    rw [fnName, hr]
    exact runtimeFor_mem hr
  | none =>
    rw [fnName, hr]
    dsimp only
    rw [List.mem_append, or_iff_right (show numbered s op (r.id t) ∉ runtime s from mk_not_runtime (stem_mem s op)),
      numbered_made hs (hs.known t ht)]
    constructor
    · rintro ⟨d, hd, rfl, ho⟩
      exact (ops_has hs hd hr).1 ho
    · intro hh
      rcases hs.defined t ht with hb | ⟨d, hd, rfl⟩
      · exfalso
        cases t with
        | bytes => rcases hh.1 rfl with rfl | rfl <;> cases hr
        | int i => cases i <;> cases s <;> cases op <;> cases hr
        | _ => first | (cases s <;> cases op <;> cases hr; done) | cases hb
      · exact ⟨d, hd, rfl, (ops_has hs hd hr).2 hh⟩

theorem plain_has {r : Root} (hs : r.Sound) (hp : r.Plain) {s : Side} {op : Op} {t : Ty} (ht : r.Occurs t)
    (h1 : t = .bytes → op = .lower ∨ op = .lift)
    (h2 : IsCallback t → match (generalizing := false) s with | .rs => op = .lift ∨ op = .read | .kt => op = .lower ∨ op = .write)
    (h3 : r.Message t → match (generalizing := false) s with | .rs => op = .lower ∨ op = .write | .kt => op = .lift ∨ op = .read) :
    r.Has s op t := by
  refine ⟨h1, h2, h3, ?_⟩
  rintro u rfl -
  rcases hs.defined _ ht with hb | ⟨d, hd, he⟩
  · cases hb
  cases d <;> simp only [Def.self, reduceCtorEq] at he
  cases he
  obtain ⟨i1, i2, i3⟩ := hp.inside _ hd u (by simp [Def.inside])
  cases ho : optionFfi u with
  | none =>
    obtain ⟨l, hl, hm⟩ := hs.options u hd ho
    refine .inr (.inr ?_)
    intro x hx
    simp only [FfiMap.get, standard, ho, hm, Option.some.injEq] at hx
    cases hx
    exact hp.options u hd hl
  | some l =>
    cases u with
    | callback n => exact absurd ⟨n, rfl⟩ i1
    | iface n => exact .inr (.inl ⟨n, rfl⟩)
    | seq v =>
      exfalso
      cases v <;> simp [optionFfi] at ho
      rcases hs.defined _ (occurs_inside hd (t := .seq .bytes) (by simp [Def.inside])) with hb | ⟨d', hd', he'⟩
      · cases hb
      cases d' <;> simp only [Def.self, reduceCtorEq] at he'
      cases he'
      obtain ⟨w, hw⟩ := (hp.inside _ hd' .bytes (by simp [Def.inside])).2.2 rfl
      cases hw
    | int i => left; cases i <;> simp_all [optionFfi, KnownOption]
    | _ => first | (left; trivial) | simp [optionFfi] at ho

end Verif.Jni.Calls
