import Verif.Pipe.Lemmas

/-! The search for a type within another one: a depth-first search that finds what is reachable. -/
namespace Verif.Pipe

theorem mem_childTypes {env : Env} {order : List Ty → List Ty} (ho : AnyOrder order) (a b : Ty) :
    b ∈ childTypes env order a ↔ Mentions env a b := by
  constructor
  · intro h
    cases a <;> simp only [childTypes, List.mem_singleton, List.not_mem_nil, List.mem_cons, or_false]
      at h
    case box => subst h; exact .box
    case option => subst h; exact .option
    case vec => subst h; exact .vec
    case btreeSet => subst h; exact .btreeSet
    case indexSet => subst h; exact .indexSet
    case indexMap => rcases h with rfl | rfl; exact .mapKey; exact .mapValue
    case named n =>
      cases hl : lookup env n with
      | none => rw [hl] at h; simp at h
      | some d =>
        rw [hl] at h
        cases d with
        | struct fs =>
          simp only [ho _ _, List.mem_eraseDups, List.mem_map, Prod.exists] at h
          obtain ⟨f, t, hm, rfl⟩ := h
          exact .field hl hm
        | enum vs =>
          simp only [ho _ _, List.mem_eraseDups, List.mem_map, Prod.exists, List.mem_flatMap] at h
          obtain ⟨x, fs, hv, f, t, hm, rfl⟩ := h
          exact .variant hl hv hm
  · intro h
    cases h <;> simp only [childTypes, List.mem_singleton, List.mem_cons, true_or, or_true, or_false]
    case field n fs f hl hm =>
      rw [hl]
      simp only [ho _ _, List.mem_eraseDups, List.mem_map, Prod.exists]
      exact ⟨f, b, hm, rfl⟩
    case variant n vs x fs f hl hv hm =>
      rw [hl]
      simp only [ho _ _, List.mem_eraseDups, List.mem_map, Prod.exists, List.mem_flatMap]
      exact ⟨x, fs, hv, f, b, hm, rfl⟩

section dfs
variable {env : Env} {order : List Ty → List Ty} {target : Ty}

theorem anyOf_true {g : List Ty → Ty → Option (Bool × List Ty)} :
    ∀ (ts V V' : List Ty), anyOf g V ts = some (true, V') →
      ∃ t ∈ ts, ∃ W W', g W t = some (true, W')
  | [], V, V', h => by simp [anyOf] at h
  | t :: ts, V, V', h => by
    simp only [anyOf] at h
    cases hg : g V t with
    | none => rw [hg] at h; simp at h
    | some r =>
      obtain ⟨b, W⟩ := r
      rw [hg] at h
      cases b
      · obtain ⟨t', ht', hh⟩ := anyOf_true ts W V' h
        exact ⟨t', List.mem_cons_of_mem _ ht', hh⟩
      · exact ⟨t, List.mem_cons_self .., V, W, hg⟩

theorem found (ho : AnyOrder order) :
    ∀ (f : Nat) (V : List Ty) (t : Ty) (V' : List Ty),
      hasDescendantType env order target f V t = some (true, V') →
      Reaches env t target ∧ isLeaf target = false
  | 0, V, t, V', h => by simp [hasDescendantType] at h
  | f + 1, V, t, V', h => by
    simp only [hasDescendantType] at h
    split at h
    · simp at h
    · rename_i hl
      split at h
      · rename_i he
        subst he
        exact ⟨.refl, by simpa using hl⟩
      · split at h
        · simp at h
        · obtain ⟨k, hk, W, W', hg⟩ := anyOf_true _ _ _ h
          have := found ho f W k W' hg
          exact ⟨.step ((mem_childTypes ho _ _).1 hk) this.1, this.2⟩

/-- What a search that found nothing leaves behind. -/
structure Closed (env : Env) (order : List Ty → List Ty) (target : Ty) (V V' : List Ty) : Prop where
  mono : ∀ x ∈ V, x ∈ V'
  closed : ∀ x ∈ V', x ∈ V ∨
    (x ≠ target ∧ ∀ k ∈ childTypes env order x, isLeaf k = true ∨ k ∈ V')

theorem anyOf_false {g : List Ty → Ty → Option (Bool × List Ty)}
    (H : ∀ V t V', g V t = some (false, V') →
      Closed env order target V V' ∧ (isLeaf t = true ∨ t ∈ V')) :
    ∀ (ts V V' : List Ty), anyOf g V ts = some (false, V') →
      Closed env order target V V' ∧ ∀ t ∈ ts, isLeaf t = true ∨ t ∈ V'
  | [], V, V', h => by
    simp only [anyOf, Option.some.injEq, Prod.mk.injEq, true_and] at h
    subst h
    exact ⟨⟨fun _ h => h, fun _ h => Or.inl h⟩, by simp⟩
  | t :: ts, V, V', h => by
    simp only [anyOf] at h
    cases hg : g V t with
    | none => rw [hg] at h; simp at h
    | some r =>
      obtain ⟨b, W⟩ := r
      rw [hg] at h
      cases b
      · obtain ⟨c1, l1⟩ := H V t W hg
        obtain ⟨c2, l2⟩ := anyOf_false H ts W V' h
        refine ⟨⟨fun x hx => c2.mono x (c1.mono x hx), ?_⟩, ?_⟩
        · intro x hx
          rcases c2.closed x hx with hw | hw
          · rcases c1.closed x hw with hv | ⟨hn, hk⟩
            · exact Or.inl hv
            · exact Or.inr ⟨hn, fun k hk' => (hk k hk').imp id (c2.mono k)⟩
          · exact Or.inr hw
        · intro t' ht'
          rcases List.mem_cons.1 ht' with rfl | ht'
          · exact l1.imp id (c2.mono _)
          · exact l2 t' ht'
      · simp at h

theorem notFound :
    ∀ (f : Nat) (V : List Ty) (t : Ty) (V' : List Ty),
      hasDescendantType env order target f V t = some (false, V') →
      Closed env order target V V' ∧ (isLeaf t = true ∨ t ∈ V')
  | 0, V, t, V', h => by simp [hasDescendantType] at h
  | f + 1, V, t, V', h => by
    simp only [hasDescendantType] at h
    have same : ∀ W : List Ty, Closed env order target W W :=
      fun W => ⟨fun _ h => h, fun _ h => Or.inl h⟩
    split at h
    · rename_i hl
      simp only [Option.some.injEq, Prod.mk.injEq, true_and] at h
      subst h
      exact ⟨same _, Or.inl hl⟩
    · split at h
      · simp at h
      · rename_i hne
        split at h
        · rename_i hm
          simp only [Option.some.injEq, Prod.mk.injEq, true_and] at h
          subst h
          exact ⟨same _, Or.inr hm⟩
        · obtain ⟨c, l⟩ := anyOf_false (fun V t V' => notFound f V t V') _ _ _ h
          refine ⟨⟨fun x hx => c.mono x (List.mem_cons_of_mem _ hx), ?_⟩,
            Or.inr (c.mono t (List.mem_cons_self ..))⟩
          intro x hx
          rcases c.closed x hx with hv | hv
          · rcases List.mem_cons.1 hv with rfl | hv
            · exact Or.inr ⟨hne, l⟩
            · exact Or.inl hv
          · exact Or.inr hv

/-- How many of the types are not yet visited. -/
def missing (U V : List Ty) : Nat := (U.filter fun x => x ∉ V).length

theorem missing_mono {U V V' : List Ty} (h : ∀ x ∈ V, x ∈ V') : missing U V' ≤ missing U V := by
  unfold missing
  rw [← List.countP_eq_length_filter, ← List.countP_eq_length_filter]
  apply List.countP_mono_left
  intro x _ hx
  simp only [decide_eq_true_eq] at hx ⊢
  exact fun hv => hx (h x hv)

theorem missing_lt {U V : List Ty} {t : Ty} (hu : t ∈ U) (hv : t ∉ V) :
    missing U (t :: V) < missing U V := by
  unfold missing
  have : U.filter (fun x => x ∉ t :: V) = (U.filter fun x => x ∉ V).filter fun x => x ≠ t := by
    rw [List.filter_filter]
    apply List.filter_congr
    intro x _
    simp [not_or]
  rw [this]
  apply List.length_filter_lt_length_iff_exists.2
  exact ⟨t, by simp [hu, hv], by simp⟩

theorem anyOf_some {U : List Ty} {g : List Ty → Ty → Option (Bool × List Ty)} {n : Nat}
    (H : ∀ V t, t ∈ U → missing U V < n → (g V t).isSome = true)
    (M : ∀ V t V', g V t = some (false, V') → ∀ x ∈ V, x ∈ V') :
    ∀ (ts V : List Ty), (∀ t ∈ ts, t ∈ U) → missing U V < n → (anyOf g V ts).isSome = true
  | [], V, _, _ => by simp [anyOf]
  | t :: ts, V, hts, hn => by
    simp only [anyOf]
    have h1 := H V t (hts t (List.mem_cons_self ..)) hn
    cases hg : g V t with
    | none => rw [hg] at h1; simp at h1
    | some r =>
      obtain ⟨b, W⟩ := r
      cases b
      · refine anyOf_some H M ts W (fun t ht => hts t (List.mem_cons_of_mem _ ht)) ?_
        exact Nat.lt_of_le_of_lt (missing_mono (M V t W hg)) hn
      · rfl

theorem enough {U : List Ty}
    (hU : ∀ t ∈ U, ∀ k ∈ childTypes env order t, k ∈ U) :
    ∀ (f : Nat) (V : List Ty) (t : Ty), t ∈ U → missing U V < f →
      (hasDescendantType env order target f V t).isSome = true
  | 0, V, t, _, h => by omega
  | f + 1, V, t, ht, h => by
    simp only [hasDescendantType]
    split
    · rfl
    · split
      · rfl
      · split
        · rfl
        · rename_i hv
          have := missing_lt ht hv
          exact anyOf_some (n := f) (fun V t ht hm => enough hU f V t ht hm)
            (fun V t V' hg => (notFound f V t V' hg).1.mono) _ _ (hU t ht) (by omega)

end dfs

theorem self_mem_subTypes (t : Ty) : t ∈ subTypes t := by cases t <;> simp [subTypes]

theorem lookup_mem {n : String} {d : Def} : ∀ {env : Env}, lookup env n = some d → (n, d) ∈ env
  | [], h => by simp [lookup] at h
  | (m, d') :: env, h => by
    simp only [lookup] at h
    split at h
    · rename_i hm
      simp only [Option.some.injEq] at h
      subst hm; subst h
      exact List.mem_cons_self ..
    · exact List.mem_cons_of_mem _ (lookup_mem h)

theorem subTypes_closed {env : Env} {a b : Ty} (h : Mentions env a b) (hn : ∀ n, a ≠ .named n) :
    ∀ s : Ty, a ∈ subTypes s → b ∈ subTypes s := by
  have key : ∀ s : Ty, a = s → b ∈ subTypes s := by
    intro s hs
    subst hs
    cases h <;> simp only [subTypes, List.mem_cons, List.mem_append, self_mem_subTypes, true_or, or_true]
    all_goals exact absurd rfl (hn _)
  intro s
  induction s with
  | leaf k => intro h; exact key _ (by simpa [subTypes] using h)
  | named n => intro h; exact key _ (by simpa [subTypes] using h)
  | box t ih | option t ih | vec t ih | btreeSet t ih | indexSet t ih =>
    intro h
    simp only [subTypes, List.mem_cons] at h
    rcases h with h | h
    · exact key _ h
    · simp only [subTypes, List.mem_cons]; exact Or.inr (ih h)
  | indexMap k v ihk ihv =>
    intro h
    simp only [subTypes, List.mem_cons, List.mem_append] at h
    rcases h with h | h | h
    · exact key _ h
    · simp only [subTypes, List.mem_cons, List.mem_append]; exact Or.inr (Or.inl (ihk h))
    · simp only [subTypes, List.mem_cons, List.mem_append]; exact Or.inr (Or.inr (ihv h))

theorem allTypes_closed {env : Env} {r a b : Ty} (h : Mentions env a b) (ha : a ∈ allTypes env r) :
    b ∈ allTypes env r := by
  by_cases hn : ∃ n, a = .named n
  · obtain ⟨n, rfl⟩ := hn
    simp only [allTypes, List.mem_append, List.mem_flatMap]
    right
    cases h with
    | field hl hm =>
      exact ⟨_, lookup_mem hl, b, by simp only [fieldTypes, List.mem_map]; exact ⟨_, hm, rfl⟩,
        self_mem_subTypes b⟩
    | variant hl hv hm =>
      refine ⟨_, lookup_mem hl, b, ?_, self_mem_subTypes b⟩
      simp only [fieldTypes, List.mem_map, List.mem_flatMap]
      exact ⟨_, hv, _, hm, rfl⟩
  · have hn' : ∀ n, a ≠ .named n := fun n h => hn ⟨n, h⟩
    simp only [allTypes, List.mem_append, List.mem_flatMap] at ha ⊢
    rcases ha with ha | ⟨d, hd, t, ht, hs⟩
    · exact Or.inl (subTypes_closed h hn' _ ha)
    · exact Or.inr ⟨d, hd, t, ht, subTypes_closed h hn' _ hs⟩

theorem leaf_reaches {env : Env} {k : Leaf} {b : Ty} (h : Reaches env (.leaf k) b) : b = .leaf k := by
  cases h with
  | refl => rfl
  | step hm _ => cases hm

/-- The check passes exactly for types that can be reached, leaves excepted. -/
theorem typecheck_iff {env : Env} {order : List Ty → List Ty} (ho : AnyOrder order) (t target : Ty) :
    typecheckVisit env order t target = true ↔ Reaches env t target ∧ isLeaf target = false := by
  have hs : (hasDescendantType env order target ((allTypes env t).length + 1) [] t).isSome = true := by
    apply enough (U := allTypes env t)
    · intro a ha k hk
      exact allTypes_closed ((mem_childTypes ho _ _).1 hk) ha
    · simp only [allTypes, List.mem_append]
      exact Or.inl (self_mem_subTypes t)
    · unfold missing
      have := List.length_filter_le (fun x => decide (x ∉ ([] : List Ty))) (allTypes env t)
      omega
  unfold typecheckVisit
  cases hr : hasDescendantType env order target ((allTypes env t).length + 1) [] t with
  | none => rw [hr] at hs; simp at hs
  | some r =>
    obtain ⟨b, V⟩ := r
    cases b with
    | true => simp only [true_iff]; exact found ho _ _ _ _ hr
    | false =>
      simp only [Bool.false_eq_true, false_iff]
      rintro ⟨hreach, hleaf⟩
      obtain ⟨c, hin⟩ := notFound _ _ _ _ hr
      have all : ∀ a b, Reaches env a b → (isLeaf a = true ∨ a ∈ V) → (isLeaf b = true ∨ b ∈ V) := by
        intro a b hab
        induction hab with
        | refl => exact id
        | step hm _ ih =>
          intro ha
          apply ih
          rcases ha with ha | ha
          · cases hm <;> simp [isLeaf] at ha
          · rcases c.closed _ ha with h | h
            · simp at h
            · exact h.2 _ ((mem_childTypes ho _ _).2 hm)
      rcases all _ _ hreach hin with h | h
      · rw [hleaf] at h; cases h
      · rcases c.closed _ h with h | h
        · simp at h
        · exact h.1 rfl

theorem child_mentioned {env : Env} {v c : Val} (hw : WellTyped env v) (hc : c ∈ children v) :
    Mentions env (typeOf v) (typeOf c) ∧ WellTyped env c := by
  cases hw <;> simp only [children, List.not_mem_nil, List.mem_map,
    List.mem_flatMap, Prod.exists, List.mem_cons, or_false] at hc <;> simp only [typeOf]
  case box ht h => subst hc; subst ht; exact ⟨.box, h⟩
  case some ht h => subst hc; subst ht; exact ⟨.option, h⟩
  case vec ht h => have := ht _ hc; subst this; exact ⟨.vec, h _ hc⟩
  case btreeSet ht h => have := ht _ hc; subst this; exact ⟨.btreeSet, h _ hc⟩
  case indexSet ht h => have := ht _ hc; subst this; exact ⟨.indexSet, h _ hc⟩
  case indexMap ht h1 h2 =>
    obtain ⟨a, b, hm, rfl | rfl⟩ := hc
    · have := (ht _ hm).1; simp only at this; subst this; exact ⟨.mapKey, h1 _ hm⟩
    · have := (ht _ hm).2; simp only at this; subst this; exact ⟨.mapValue, h2 _ hm⟩
  case struct ds fs hl hd h =>
    obtain ⟨a, b, hm, rfl⟩ := hc
    refine ⟨.field (f := a) hl ?_, h _ hm⟩
    rw [← hd, List.mem_map]
    exact ⟨_, hm, rfl⟩
  case enum vs x ds fs hl hv hd h =>
    obtain ⟨a, b, hm, rfl⟩ := hc
    refine ⟨.variant (f := a) hl hv ?_, h _ hm⟩
    rw [← hd, List.mem_map]
    exact ⟨_, hm, rfl⟩

/-- A part of a value has a type that the type of the value reaches. -/
theorem part_reached {env : Env} : ∀ (p : List Nat) (v w : Val), WellTyped env v →
    at? v p = some w → Reaches env (typeOf v) (typeOf w)
  | [], v, w, _, h => by
    simp only [at?, Option.some.injEq] at h
    subst h
    exact .refl
  | i :: p, v, w, hw, h => by
    simp only [at?] at h
    cases hc : (children v)[i]? with
    | none => rw [hc] at h; simp at h
    | some c =>
      rw [hc] at h
      obtain ⟨hm, hwc⟩ := child_mentioned hw (List.mem_of_getElem? hc)
      exact .step hm (part_reached p c w hwc h)

end Verif.Pipe
