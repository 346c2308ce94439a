import Verif.Jni.LookupSpec
import Verif.Jni.CallsLemmas
/-
Lemmas for C91.
-/
namespace Verif.Jni.Lookup
open Verif.Jni Verif.Jni.Calls

theorem lookup_none (c : Char) (s : Str) (hs : s.getLast? = some c) : ∀ (T : List (Str × Str)),
    (∀ p ∈ T, p.1.getLast? ≠ some c) → T.lookup s = none
  | [], _ => rfl
  | (k, v) :: T, h => by
    have hk : (s == k) = false := by
      rw [beq_eq_false_iff_ne]
      rintro rfl
      exact h (s, v) (by simp) hs
    rw [List.lookup_cons, hk]
    exact lookup_none c s hs T fun p hp => h p (by simp [hp])

theorem last_snoc (s : Str) (c : Char) : (s ++ [c]).getLast? = some c := by simp

theorem named_last (N : Names) (n : Name) (t : Ty) : (N.named n t).getLast? = some '`' := last_snoc _ _

theorem not_prefix {N : Names} (hN : N.Ok) (n : Name) (t : Ty) (pre : Str) (h1 : "kotlin.collections".toList <+: pre)
    (h2 : '`' ∉ pre) (h3 : pre.getLast? ≠ some '.') : pre.isPrefixOf (N.named n t) = false := by
  rw [Bool.eq_false_iff]
  intro h
  rw [List.isPrefixOf_iff_prefix] at h
  unfold Names.named at h
  rw [List.append_assoc] at h
  rcases List.prefix_or_prefix_of_prefix h (List.prefix_append _ _) with h' | ⟨q, hq⟩
  · exact hN.pkg n (h1.trans h')
  · subst hq
    rw [List.prefix_append_right_inj] at h
    match q with
    | [] =>
      rw [List.append_nil] at h1
      exact hN.pkg n h1
    | [c] =>
      simp at h
      subst h
      exact h3 (by simp)
    | c :: d :: q =>
      simp at h
      obtain ⟨-, rfl, -⟩ := h
      exact h2 (by simp)

theorem slashes_append (a b : Str) : slashes (a ++ b) = slashes a ++ slashes b := by simp [slashes]

theorem slashes_pkg (s : Str) : slashes s = (s.filter (· ≠ '`')).map fun c => if c = '.' then '/' else c := by
  unfold slashes
  rw [List.filter_map]
  congr 1
  apply List.filter_congr
  intro c _
  by_cases h : c = '.' <;> simp [h]

theorem slashes_cls {s : Str} (h : ∀ c ∈ s, c ≠ '.' ∧ c ≠ '`') : slashes s = s := by
  unfold slashes
  induction s with
  | nil => rfl
  | cons c s ih =>
    have h1 := h c (by simp)
    have := ih fun d hd => h d (by simp [hd])
    simp [h1.1, h1.2] at this ⊢
    exact this

theorem plain_named {N : Names} (hN : N.Ok) (n : Name) (t : Ty) : plainSig (N.named n t) = classOf N n t := by
  unfold plainSig
  rw [lookup_none '`' _ (named_last N n t) primTable (by decide +kernel)]
  dsimp only
  rw [not_prefix hN n t _ (by decide +kernel) (by decide +kernel) (by decide +kernel),
    not_prefix hN n t _ (by decide +kernel) (by decide +kernel) (by decide +kernel),
    not_prefix hN n t _ (by decide +kernel) (by decide +kernel) (by decide +kernel)]
  simp only [Bool.false_eq_true, if_false, classOf, Names.named]
  rw [List.append_assoc, slashes_append, slashes_pkg (N.pkg n)]
  have : slashes ('.' :: '`' :: N.cls t ++ ['`']) = '/' :: N.cls t := by
    have e : ('.' :: '`' :: N.cls t ++ ['`']) = ['.', '`'] ++ N.cls t ++ ['`'] := by simp
    rw [e, slashes_append, slashes_append, slashes_cls (hN.cls t)]
    simp [slashes]
  rw [this]
  simp

theorem boxed_named (N : Names) (n : Name) (t : Ty) : boxedTable.lookup (N.named n t) = none :=
  lookup_none '`' _ (named_last N n t) boxedTable (by decide +kernel)

/-- The type in a box. -/
def unboxed : Ty → Ty
  | .box t => unboxed t
  | t => t

/-- Neither a string, bytes, custom nor optional, boxed or not. -/
def Solid (t : Ty) : Prop :=
  unboxed t ≠ .string ∧ unboxed t ≠ .bytes ∧ (∀ n b, unboxed t ≠ .custom n b) ∧ ∀ u, unboxed t ≠ .option u

theorem typeKt_unboxed (N : Names) (t : Ty) : typeKt N t = typeKt N (unboxed t) := by
  induction t with
  | box t ih => exact ih
  | _ => rfl

theorem descriptor_unboxed (N : Names) (b : Bool) (t : Ty) : descriptor N b t = descriptor N b (unboxed t) := by
  induction t with
  | box t ih => exact ih
  | _ => rfl

theorem unboxed_not_box (t u : Ty) : unboxed t ≠ .box u := by
  induction t with
  | box t ih => exact ih
  | _ => simp [unboxed]

/-- The signature of a type that may be `null`. -/
def boxedSig (s : Str) : Str :=
  match boxedTable.lookup s with
  | some r => r
  | none => plainSig s

theorem plain_int_i8 : plainSig "kotlin.Byte".toList = ['B'] := by decide +kernel
theorem boxed_int_i8 : boxedSig "kotlin.Byte".toList = "Ljava/lang/Byte;".toList := by decide +kernel
theorem plain_int_i16 : plainSig "kotlin.Short".toList = ['S'] := by decide +kernel
theorem boxed_int_i16 : boxedSig "kotlin.Short".toList = "Ljava/lang/Short;".toList := by decide +kernel
theorem plain_int_i32 : plainSig "kotlin.Int".toList = ['I'] := by decide +kernel
theorem plain_int_i64 : plainSig "kotlin.Long".toList = ['J'] := by decide +kernel
theorem boxed_int_i64 : boxedSig "kotlin.Long".toList = "Ljava/lang/Long;".toList := by decide +kernel
theorem plain_int_u8 : plainSig "kotlin.UByte".toList = ['B'] := by decide +kernel
theorem boxed_int_u8 : boxedSig "kotlin.UByte".toList = "Lkotlin/UByte;".toList := by decide +kernel
theorem plain_int_u16 : plainSig "kotlin.UShort".toList = ['S'] := by decide +kernel
theorem boxed_int_u16 : boxedSig "kotlin.UShort".toList = "Lkotlin/UShort;".toList := by decide +kernel
theorem plain_int_u32 : plainSig "kotlin.UInt".toList = ['I'] := by decide +kernel
theorem boxed_int_u32 : boxedSig "kotlin.UInt".toList = "Lkotlin/UInt;".toList := by decide +kernel
theorem plain_int_u64 : plainSig "kotlin.ULong".toList = ['J'] := by decide +kernel
theorem boxed_int_u64 : boxedSig "kotlin.ULong".toList = "Lkotlin/ULong;".toList := by decide +kernel
theorem plain_f32 : plainSig "kotlin.Float".toList = ['F'] := by decide +kernel
theorem boxed_f32 : boxedSig "kotlin.Float".toList = "Ljava/lang/Float;".toList := by decide +kernel
theorem plain_f64 : plainSig "kotlin.Double".toList = ['D'] := by decide +kernel
theorem boxed_f64 : boxedSig "kotlin.Double".toList = "Ljava/lang/Double;".toList := by decide +kernel
theorem plain_bool : plainSig "kotlin.Boolean".toList = ['Z'] := by decide +kernel
theorem boxed_bool : boxedSig "kotlin.Boolean".toList = "Ljava/lang/Boolean;".toList := by decide +kernel
theorem plain_duration : plainSig "java.time.Duration".toList = "Ljava/time/Duration;".toList := by decide +kernel
theorem boxed_duration : boxedSig "java.time.Duration".toList = "Ljava/time/Duration;".toList := by decide +kernel
theorem plain_timestamp : plainSig "java.time.Instant".toList = "Ljava/time/Instant;".toList := by decide +kernel
theorem boxed_timestamp : boxedSig "java.time.Instant".toList = "Ljava/time/Instant;".toList := by decide +kernel
theorem noq_int_i8 : ("kotlin.Byte".toList).getLast? ≠ some '?' := by decide +kernel
theorem noq_int_i16 : ("kotlin.Short".toList).getLast? ≠ some '?' := by decide +kernel
theorem noq_int_i32 : ("kotlin.Int".toList).getLast? ≠ some '?' := by decide +kernel
theorem noq_int_i64 : ("kotlin.Long".toList).getLast? ≠ some '?' := by decide +kernel
theorem noq_int_u8 : ("kotlin.UByte".toList).getLast? ≠ some '?' := by decide +kernel
theorem noq_int_u16 : ("kotlin.UShort".toList).getLast? ≠ some '?' := by decide +kernel
theorem noq_int_u32 : ("kotlin.UInt".toList).getLast? ≠ some '?' := by decide +kernel
theorem noq_int_u64 : ("kotlin.ULong".toList).getLast? ≠ some '?' := by decide +kernel
theorem noq_f32 : ("kotlin.Float".toList).getLast? ≠ some '?' := by decide +kernel
theorem noq_f64 : ("kotlin.Double".toList).getLast? ≠ some '?' := by decide +kernel
theorem noq_bool : ("kotlin.Boolean".toList).getLast? ≠ some '?' := by decide +kernel
theorem noq_duration : ("java.time.Duration".toList).getLast? ≠ some '?' := by decide +kernel
theorem noq_timestamp : ("java.time.Instant".toList).getLast? ≠ some '?' := by decide +kernel
theorem noq_string : ("kotlin.String".toList).getLast? ≠ some '?' := by decide +kernel
theorem noq_bytes : ("kotlin.ByteArray".toList).getLast? ≠ some '?' := by decide +kernel

theorem prefix_lit (p l x : Str) (h : p <+: l) : p.isPrefixOf (l ++ x ++ ['>']) = true := by
  rw [List.isPrefixOf_iff_prefix, List.append_assoc]
  exact h.trans (List.prefix_append _ _)

theorem no_prefix_lit (p l x : Str) (h1 : ¬ p <+: l) (h2 : ¬ l <+: p) : p.isPrefixOf (l ++ x ++ ['>']) = false := by
  rw [Bool.eq_false_iff, Ne, List.isPrefixOf_iff_prefix, List.append_assoc]
  intro h
  rcases List.prefix_or_prefix_of_prefix h (List.prefix_append _ _) with h | h
  · exact h1 h
  · exact h2 h

theorem plain_list (x : Str) : plainSig ("kotlin.collections.List<".toList ++ x ++ ['>']) = "Ljava/util/List;".toList := by
  unfold plainSig
  rw [lookup_none '>' _ (last_snoc _ _) primTable (by decide +kernel)]
  dsimp only
  rw [prefix_lit _ _ _ (by decide +kernel), if_pos rfl]

theorem plain_map (x y z : Str) :
    plainSig ("kotlin.collections.Map<".toList ++ x ++ y ++ z ++ ['>']) = "Ljava/util/Map;".toList := by
  have e : "kotlin.collections.Map<".toList ++ x ++ y ++ z ++ ['>'] = "kotlin.collections.Map<".toList ++ (x ++ y ++ z) ++ ['>'] := by
    rw [List.append_assoc _ x, List.append_assoc _ (x ++ y)]
  rw [e]
  unfold plainSig
  rw [lookup_none '>' _ (last_snoc _ _) primTable (by decide +kernel)]
  dsimp only
  rw [no_prefix_lit _ _ _ (by decide +kernel) (by decide +kernel), if_neg Bool.false_ne_true,
    prefix_lit _ _ _ (by decide +kernel), if_pos rfl]

theorem plain_set (x : Str) : plainSig ("kotlin.collections.Set<".toList ++ x ++ ['>']) = "Ljava/util/Set;".toList := by
  unfold plainSig
  rw [lookup_none '>' _ (last_snoc _ _) primTable (by decide +kernel)]
  dsimp only
  rw [no_prefix_lit _ _ _ (by decide +kernel) (by decide +kernel), if_neg Bool.false_ne_true,
    no_prefix_lit _ _ _ (by decide +kernel) (by decide +kernel), if_neg Bool.false_ne_true,
    prefix_lit _ _ _ (by decide +kernel), if_pos rfl]

theorem boxed_coll (s : Str) : boxedSig (s ++ ['>']) = plainSig (s ++ ['>']) := by
  unfold boxedSig
  rw [lookup_none '>' _ (last_snoc _ _) boxedTable (by decide +kernel)]

theorem boxedSig_named (N : Names) (n : Name) (t : Ty) : boxedSig (N.named n t) = plainSig (N.named n t) := by
  unfold boxedSig
  rw [boxed_named]

theorem solid_plain {N : Names} (hN : N.Ok) {t : Ty} (h : Solid t) : plainSig (typeKt N t) = descriptor N false t := by
  rw [typeKt_unboxed, descriptor_unboxed]
  obtain ⟨h1, h2, h3, h4⟩ := h
  have h5 := unboxed_not_box t
  generalize unboxed t = t at *
  cases t with
  | int i =>
    cases i with
    | i8 => exact plain_int_i8
    | i16 => exact plain_int_i16
    | i32 => exact plain_int_i32
    | i64 => exact plain_int_i64
    | u8 => exact plain_int_u8
    | u16 => exact plain_int_u16
    | u32 => exact plain_int_u32
    | u64 => exact plain_int_u64
  | f32 => exact plain_f32
  | f64 => exact plain_f64
  | bool => exact plain_bool
  | duration => exact plain_duration
  | timestamp => exact plain_timestamp
  | string => exact absurd rfl h1
  | bytes => exact absurd rfl h2
  | custom n b => exact absurd rfl (h3 n b)
  | option u => exact absurd rfl (h4 u)
  | box u => exact absurd rfl (h5 u)
  | record n => exact plain_named hN n _
  | enum n => exact plain_named hN n _
  | iface n => exact plain_named hN n _
  | callback n => exact plain_named hN n _
  | seq u => exact plain_list _
  | map k v => exact plain_map _ _ _
  | set u => exact plain_set _

theorem solid_boxed {N : Names} (hN : N.Ok) {t : Ty} (h : Solid t) (hi : unboxed t ≠ .int .i32) :
    boxedSig (typeKt N t) = descriptor N true t := by
  rw [typeKt_unboxed, descriptor_unboxed]
  obtain ⟨h1, h2, h3, h4⟩ := h
  have h5 := unboxed_not_box t
  generalize unboxed t = t at *
  cases t with
  | int i =>
    cases i with
    | i8 => exact boxed_int_i8
    | i16 => exact boxed_int_i16
    | i32 => exact absurd rfl hi
    | i64 => exact boxed_int_i64
    | u8 => exact boxed_int_u8
    | u16 => exact boxed_int_u16
    | u32 => exact boxed_int_u32
    | u64 => exact boxed_int_u64
  | f32 => exact boxed_f32
  | f64 => exact boxed_f64
  | bool => exact boxed_bool
  | duration => exact boxed_duration
  | timestamp => exact boxed_timestamp
  | string => exact absurd rfl h1
  | bytes => exact absurd rfl h2
  | custom n b => exact absurd rfl (h3 n b)
  | option u => exact absurd rfl (h4 u)
  | box u => exact absurd rfl (h5 u)
  | record n => exact (boxedSig_named N n _).trans (plain_named hN n _)
  | enum n => exact (boxedSig_named N n _).trans (plain_named hN n _)
  | iface n => exact (boxedSig_named N n _).trans (plain_named hN n _)
  | callback n => exact (boxedSig_named N n _).trans (plain_named hN n _)
  | seq u => exact (boxed_coll _).trans (plain_list _)
  | map k v => exact (boxed_coll _).trans (plain_map _ _ _)
  | set u => exact (boxed_coll _).trans (plain_set _)

theorem stripQ_some (s : Str) : stripQ (s ++ ['?']) = some s := by simp [stripQ]

/-! ### Options around a type -/

theorem core_not (t : Ty) : (∀ u, core t ≠ .box u) ∧ ∀ u, core t ≠ .option u := by
  induction t with
  | box t ih => exact ih
  | option t ih => exact ih
  | _ => simp [core]

theorem unboxed_core (t : Ty) : unboxed (core t) = core t := by
  have := (core_not t).1
  generalize core t = c at *
  cases c with
  | box u => exact absurd rfl (this u)
  | _ => rfl

theorem typeKt_core (N : Names) (t : Ty) : typeKt N t = typeKt N (core t) ++ List.replicate (depth t) '?' := by
  induction t with
  | box t ih => exact ih
  | option t ih =>
    show typeKt N t ++ ['?'] = typeKt N (core t) ++ List.replicate (depth t + 1) '?'
    rw [ih, List.replicate_succ', List.append_assoc]
  | _ => exact (List.append_nil _).symm

theorem descriptor_core (N : Names) (t : Ty) : ∀ b, descriptor N b t = descriptor N (b || decide (0 < depth t)) (core t) := by
  induction t with
  | box t ih => exact ih
  | option t ih =>
    intro b
    show descriptor N true t = descriptor N (b || decide (0 < depth t + 1)) (core t)
    rw [ih true]
    simp
  | _ => intro b; simp [depth, core]

theorem retSig_zero {s : Str} (h : s.getLast? ≠ some '?') : retSig s = plainSig s := by
  unfold retSig stripQ
  rw [if_neg h]

theorem retSig_succ (s : Str) (k : Nat) : retSig (s ++ List.replicate (k + 1) '?') = boxedSig (s ++ List.replicate k '?') := by
  rw [List.replicate_succ', ← List.append_assoc]
  unfold retSig
  rw [stripQ_some]
  rfl

theorem last_q (s : Str) (k : Nat) : (s ++ List.replicate (k + 1) '?').getLast? = some '?' := by
  rw [List.replicate_succ', ← List.append_assoc]
  exact last_snoc _ _

/-- The signature of a type with more than one option around it, before the collections are looked for. -/
theorem many (s : Str) (k : Nat) : boxedSig (s ++ List.replicate (k + 1) '?') = plainSig (s ++ List.replicate (k + 1) '?') := by
  unfold boxedSig
  rw [lookup_none '?' _ (last_q s k) boxedTable (by decide +kernel)]

theorem prefix_any (p l x : Str) (h : p <+: l) : p.isPrefixOf (l ++ x) = true := by
  rw [List.isPrefixOf_iff_prefix]
  exact h.trans (List.prefix_append _ _)

theorem no_prefix_any (p l x : Str) (h1 : ¬ p <+: l) (h2 : ¬ l <+: p) : p.isPrefixOf (l ++ x) = false := by
  rw [Bool.eq_false_iff, Ne, List.isPrefixOf_iff_prefix]
  intro h
  rcases List.prefix_or_prefix_of_prefix h (List.prefix_append _ _) with h | h
  · exact h1 h
  · exact h2 h

theorem many_list (x : Str) (k : Nat) :
    plainSig ("kotlin.collections.List<".toList ++ x ++ ['>'] ++ List.replicate (k + 1) '?') = "Ljava/util/List;".toList := by
  unfold plainSig
  rw [lookup_none '?' _ (last_q _ k) primTable (by decide +kernel)]
  dsimp only
  rw [List.append_assoc, List.append_assoc, prefix_any _ _ _ (by decide +kernel), if_pos rfl]

theorem many_map (x y z : Str) (k : Nat) :
    plainSig ("kotlin.collections.Map<".toList ++ x ++ y ++ z ++ ['>'] ++ List.replicate (k + 1) '?') = "Ljava/util/Map;".toList := by
  unfold plainSig
  rw [lookup_none '?' _ (last_q _ k) primTable (by decide +kernel)]
  dsimp only
  rw [List.append_assoc, List.append_assoc, List.append_assoc, List.append_assoc,
    no_prefix_any _ _ _ (by decide +kernel) (by decide +kernel), if_neg Bool.false_ne_true,
    prefix_any _ _ _ (by decide +kernel), if_pos rfl]

theorem many_set (x : Str) (k : Nat) :
    plainSig ("kotlin.collections.Set<".toList ++ x ++ ['>'] ++ List.replicate (k + 1) '?') = "Ljava/util/Set;".toList := by
  unfold plainSig
  rw [lookup_none '?' _ (last_q _ k) primTable (by decide +kernel)]
  dsimp only
  rw [List.append_assoc, List.append_assoc,
    no_prefix_any _ _ _ (by decide +kernel) (by decide +kernel), if_neg Bool.false_ne_true,
    no_prefix_any _ _ _ (by decide +kernel) (by decide +kernel), if_neg Bool.false_ne_true,
    prefix_any _ _ _ (by decide +kernel), if_pos rfl]

/-- Not the beginning of a collection, nor the other way round. -/
def Apart (s : Str) : Prop :=
  ¬ "kotlin.collections".toList <+: s ∧ ¬ s <+: "kotlin.collections.List".toList ∧ ¬ s <+: "kotlin.collections.Map".toList ∧
    ¬ s <+: "kotlin.collections.Set".toList

instance (s : Str) : Decidable (Apart s) := by unfold Apart; infer_instance

theorem slashes_q (k : Nat) : slashes (List.replicate k '?') = List.replicate k '?' := by
  apply slashes_cls
  intro c hc
  rw [List.eq_of_mem_replicate hc]
  decide

theorem many_apart {s : Str} (h : Apart s) (k : Nat) :
    plainSig (s ++ List.replicate (k + 1) '?') = 'L' :: slashes s ++ List.replicate (k + 1) '?' ++ [';'] := by
  obtain ⟨h1, h2, h3, h4⟩ := h
  unfold plainSig
  rw [lookup_none '?' _ (last_q _ k) primTable (by decide +kernel)]
  dsimp only
  have a : "kotlin.collections".toList <+: "kotlin.collections.List".toList := by decide +kernel
  have b : "kotlin.collections".toList <+: "kotlin.collections.Map".toList := by decide +kernel
  have c : "kotlin.collections".toList <+: "kotlin.collections.Set".toList := by decide +kernel
  rw [no_prefix_any _ _ _ (fun h => h1 (a.trans h)) h2, if_neg Bool.false_ne_true,
    no_prefix_any _ _ _ (fun h => h1 (b.trans h)) h3, if_neg Bool.false_ne_true,
    no_prefix_any _ _ _ (fun h => h1 (c.trans h)) h4, if_neg Bool.false_ne_true, slashes_append, slashes_q]
  rfl

theorem many_wrong {s d : Str} (h : Apart s) (hd : '?' ∉ d) (k : Nat) : plainSig (s ++ List.replicate (k + 1) '?') ≠ d := by
  rw [many_apart h]
  rintro rfl
  exact hd (by simp [List.replicate_succ])

theorem named_apart {N : Names} (hN : N.Ok) (n : Name) (t : Ty) : Apart (N.named n t) := by
  have key : ∀ p : Str, '`' ∉ p → ¬ N.named n t <+: p := by
    intro p hp h
    exact hp (h.subset (List.mem_of_mem_getLast? (named_last N n t)))
  refine ⟨?_, key _ (by decide +kernel), key _ (by decide +kernel), key _ (by decide +kernel)⟩
  have := not_prefix hN n t "kotlin.collections".toList (List.prefix_refl _) (by decide +kernel) (by decide +kernel)
  rw [Bool.eq_false_iff, Ne, List.isPrefixOf_iff_prefix] at this
  exact this

theorem named_slashes {N : Names} (hN : N.Ok) (n : Name) (t : Ty) : 'L' :: slashes (N.named n t) ++ [';'] = classOf N n t := by
  rw [← plain_named hN n t]
  unfold plainSig
  rw [lookup_none '`' _ (named_last N n t) primTable (by decide +kernel)]
  dsimp only
  rw [not_prefix hN n t _ (by decide +kernel) (by decide +kernel) (by decide +kernel),
    not_prefix hN n t _ (by decide +kernel) (by decide +kernel) (by decide +kernel),
    not_prefix hN n t _ (by decide +kernel) (by decide +kernel) (by decide +kernel)]
  rfl

theorem many_named {N : Names} (hN : N.Ok) (n : Name) (t : Ty) (k : Nat) :
    plainSig (N.named n t ++ List.replicate (k + 1) '?') ≠ classOf N n t := by
  rw [many_apart (named_apart hN n t), ← named_slashes hN n t]
  intro h
  have := congrArg List.length h
  simp at this

theorem core_noq {N : Names} (t : Ty) : (typeKt N (core t)).getLast? ≠ some '?' := by
  have h4 := (core_not t).2
  have h5 := (core_not t).1
  generalize core t = t at *
  have hn : ∀ n t, (N.named n t).getLast? ≠ some '?' := by intro n t; rw [named_last]; simp
  have hg : ∀ s : Str, (s ++ ['>']).getLast? ≠ some '?' := by intro s; rw [last_snoc]; simp
  cases t with
  | int i =>
    cases i with
    | i8 => exact noq_int_i8
    | i16 => exact noq_int_i16
    | i32 => exact noq_int_i32
    | i64 => exact noq_int_i64
    | u8 => exact noq_int_u8
    | u16 => exact noq_int_u16
    | u32 => exact noq_int_u32
    | u64 => exact noq_int_u64
  | f32 => exact noq_f32
  | f64 => exact noq_f64
  | bool => exact noq_bool
  | duration => exact noq_duration
  | timestamp => exact noq_timestamp
  | string => exact noq_string
  | bytes => exact noq_bytes
  | option u => exact absurd rfl (h4 u)
  | box u => exact absurd rfl (h5 u)
  | record n | enum n | iface n | callback n => exact hn n _
  | custom n b => exact hn n _
  | seq u => exact hg _
  | map k v => exact hg _
  | set u => exact hg _

theorem many_solid {N : Names} (hN : N.Ok) (t : Ty) (hc : ∀ n b, core t ≠ .custom n b) (k : Nat) :
    plainSig (typeKt N (core t) ++ List.replicate (k + 1) '?') = descriptor N true (core t) ↔ Collection (core t) := by
  have h4 := (core_not t).2
  have h5 := (core_not t).1
  generalize core t = t at *
  have no : ∀ {s d : Str} {c : Ty}, Apart s → '?' ∉ d → ¬ Collection c →
      (plainSig (s ++ List.replicate (k + 1) '?') = d ↔ Collection c) :=
    fun h hd hc => ⟨fun e => absurd e (many_wrong h hd k), fun h => absurd h hc⟩
  cases t with
  | int i =>
    cases i with
    | i8 => exact no (s := "kotlin.Byte".toList) (d := "Ljava/lang/Byte;".toList) (by decide +kernel) (by decide +kernel) (by simp [Collection])
    | i16 => exact no (s := "kotlin.Short".toList) (d := "Ljava/lang/Short;".toList) (by decide +kernel) (by decide +kernel) (by simp [Collection])
    | i32 => exact no (s := "kotlin.Int".toList) (d := "Ljava/lang/Integer;".toList) (by decide +kernel) (by decide +kernel) (by simp [Collection])
    | i64 => exact no (s := "kotlin.Long".toList) (d := "Ljava/lang/Long;".toList) (by decide +kernel) (by decide +kernel) (by simp [Collection])
    | u8 => exact no (s := "kotlin.UByte".toList) (d := "Lkotlin/UByte;".toList) (by decide +kernel) (by decide +kernel) (by simp [Collection])
    | u16 => exact no (s := "kotlin.UShort".toList) (d := "Lkotlin/UShort;".toList) (by decide +kernel) (by decide +kernel) (by simp [Collection])
    | u32 => exact no (s := "kotlin.UInt".toList) (d := "Lkotlin/UInt;".toList) (by decide +kernel) (by decide +kernel) (by simp [Collection])
    | u64 => exact no (s := "kotlin.ULong".toList) (d := "Lkotlin/ULong;".toList) (by decide +kernel) (by decide +kernel) (by simp [Collection])
  | f32 => exact no (s := "kotlin.Float".toList) (d := "Ljava/lang/Float;".toList) (by decide +kernel) (by decide +kernel) (by simp [Collection])
  | f64 => exact no (s := "kotlin.Double".toList) (d := "Ljava/lang/Double;".toList) (by decide +kernel) (by decide +kernel) (by simp [Collection])
  | bool => exact no (s := "kotlin.Boolean".toList) (d := "Ljava/lang/Boolean;".toList) (by decide +kernel) (by decide +kernel) (by simp [Collection])
  | duration => exact no (s := "java.time.Duration".toList) (d := "Ljava/time/Duration;".toList) (by decide +kernel) (by decide +kernel) (by simp [Collection])
  | timestamp => exact no (s := "java.time.Instant".toList) (d := "Ljava/time/Instant;".toList) (by decide +kernel) (by decide +kernel) (by simp [Collection])
  | string => exact no (s := "kotlin.String".toList) (d := "Ljava/lang/String;".toList) (by decide +kernel) (by decide +kernel) (by simp [Collection])
  | bytes => exact no (s := "kotlin.ByteArray".toList) (d := "[B".toList) (by decide +kernel) (by decide +kernel) (by simp [Collection])
  | option u => exact absurd rfl (h4 u)
  | box u => exact absurd rfl (h5 u)
  | record n | enum n | iface n | callback n =>
    exact ⟨fun e => absurd e (many_named hN n _ k), fun h => by simp [Collection] at h⟩
  | custom n b => exact absurd rfl (hc n b)
  | seq u => exact ⟨fun _ => .inl ⟨u, rfl⟩, fun _ => many_list _ k⟩
  | map a b => exact ⟨fun _ => .inr (.inl ⟨a, b, rfl⟩), fun _ => many_map _ _ _ k⟩
  | set u => exact ⟨fun _ => .inr (.inr ⟨u, rfl⟩), fun _ => many_set _ k⟩

theorem plain_string : plainSig "kotlin.String".toList ≠ "Ljava/lang/String;".toList := by decide +kernel
theorem plain_bytes : plainSig "kotlin.ByteArray".toList ≠ "[B".toList := by decide +kernel
theorem boxed_string : boxedSig "kotlin.String".toList ≠ "Ljava/lang/String;".toList := by decide +kernel
theorem boxed_bytes : boxedSig "kotlin.ByteArray".toList ≠ "[B".toList := by decide +kernel
theorem boxed_i32 : boxedSig "kotlin.Int".toList ≠ "Ljava/lang/Integer;".toList := by decide +kernel

/-- For which types the signature is right. -/
theorem fit_iff {N : Names} (hN : N.Ok) {t : Ty} (hc : ∀ n b, core t ≠ .custom n b) :
    retSig (typeKt N t) = descriptor N false t ↔ Fit t := by
  rw [typeKt_core, descriptor_core, Bool.false_or]
  unfold Fit
  have hs : core t ≠ .string → core t ≠ .bytes → Solid (core t) := by
    intro h1 h2
    unfold Solid
    rw [unboxed_core]
    exact ⟨h1, h2, hc, (core_not t).2⟩
  have hcol : Collection (core t) → core t ≠ .string ∧ core t ≠ .bytes ∧ core t ≠ .int .i32 := by
    rintro (⟨u, e⟩ | ⟨a, b, e⟩ | ⟨u, e⟩) <;> simp [e]
  match h : depth t with
  | 0 =>
    rw [List.replicate_zero, List.append_nil, retSig_zero (core_noq t)]
    simp only [Nat.lt_irrefl, decide_false, true_or, and_true]
    constructor
    · intro e
      refine .inr ⟨?_, ?_, hc⟩
      · intro hq; rw [hq] at e; exact plain_string e
      · intro hq; rw [hq] at e; exact plain_bytes e
    · rintro (h | ⟨h1, h2, -⟩)
      · exact solid_plain hN (hs (hcol h).1 (hcol h).2.1)
      · exact solid_plain hN (hs h1 h2)
  | 1 =>
    rw [retSig_succ, List.replicate_zero, List.append_nil]
    have e1 : decide (0 < 1) = true := rfl
    rw [e1]
    constructor
    · intro e
      refine .inr ⟨⟨?_, ?_, hc⟩, .inr ⟨rfl, ?_⟩⟩
      · intro hq; rw [hq] at e; exact boxed_string e
      · intro hq; rw [hq] at e; exact boxed_bytes e
      · intro hq; rw [hq] at e; exact boxed_i32 e
    · rintro (h | ⟨⟨h1, h2, -⟩, h0 | ⟨-, h3⟩⟩)
      · exact solid_boxed hN (hs (hcol h).1 (hcol h).2.1) (by rw [unboxed_core]; exact (hcol h).2.2)
      · simp at h0
      · exact solid_boxed hN (hs h1 h2) (by rw [unboxed_core]; exact h3)
  | k + 2 =>
    rw [retSig_succ, many]
    have e1 : decide (0 < k + 2) = true := by simp
    rw [e1, many_solid hN t hc k]
    constructor
    · exact .inl
    · rintro (h | ⟨-, h0 | ⟨h0, -⟩⟩)
      · exact h
      · simp at h0
      · simp at h0

/-! ### Variables -/

theorem firsts_mem {r : Root} : ∀ (ts : List Ty) (seen : List Nat) (t : Ty), t ∈ firsts r seen ts → t ∈ ts
  | [], _, _, h => by simp [firsts] at h
  | u :: ts, seen, t, h => by
    unfold firsts at h
    split at h
    · exact .tail _ (firsts_mem ts _ t h)
    · rcases List.mem_cons.1 h with rfl | h
      · exact .head _
      · exact .tail _ (firsts_mem ts _ t h)

theorem firsts_ids {r : Root} : ∀ (ts : List Ty) (seen : List Nat), ∀ i, i ∈ (firsts r seen ts).map r.id ↔
    i ∈ ts.map r.id ∧ i ∉ seen
  | [], seen, i => by simp [firsts]
  | u :: ts, seen, i => by
    unfold firsts
    split
    · rename_i h
      rw [firsts_ids ts seen i]
      simp only [List.map_cons, List.mem_cons]
      constructor
      · rintro ⟨a, b⟩; exact ⟨.inr a, b⟩
      · rintro ⟨rfl | a, b⟩
        · exact absurd h b
        · exact ⟨a, b⟩
    · rename_i h
      simp only [List.map_cons, List.mem_cons]
      rw [firsts_ids ts _ i]
      simp only [List.mem_cons, not_or]
      by_cases e : i = r.id u
      · subst e; simp [h]
      · simp [e]

theorem firsts_nodup {r : Root} : ∀ (ts : List Ty) (seen : List Nat), ((firsts r seen ts).map r.id).Nodup
  | [], _ => by simp [firsts]
  | u :: ts, seen => by
    unfold firsts
    split
    · exact firsts_nodup ts seen
    · rw [List.map_cons, List.nodup_cons]
      refine ⟨?_, firsts_nodup ts _⟩
      rw [firsts_ids]
      simp

end Verif.Jni.Lookup
