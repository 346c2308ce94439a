import Verif.Gen.TypeWalk
import Verif.Gen.TypeWalkSpec
namespace Verif.Gen
open Verif Verif.Meta

theorem Inside.trans {a b c : MTy} (h : Inside a b) (h' : Inside b c) : Inside a c := by
  induction h' with
  | refl => exact h
  | part hp _ ih => exact .part hp ih

theorem iterTypes_optional (t : MTy) : iterTypes (.optional t) = .optional t :: iterTypes t := rfl
theorem iterTypes_sequence (t : MTy) : iterTypes (.sequence t) = .sequence t :: iterTypes t := rfl
theorem iterTypes_set (t : MTy) : iterTypes (.set t) = .set t :: iterTypes t := rfl
theorem iterTypes_custom (m n : String) (t : MTy) :
    iterTypes (.custom m n t) = .custom m n t :: iterTypes t := rfl
theorem iterTypes_map (k v : MTy) :
    iterTypes (.map k v) = .map k v :: (iterTypes k ++ iterTypes v) := rfl

theorem iterTypes_sound (t : MTy) : ∀ u ∈ iterTypes t, Inside u t := by
  induction t with
  | optional t ih | sequence t ih | set t ih | custom m n t ih =>
    intro u hu
    simp only [iterTypes_optional, iterTypes_sequence, iterTypes_set, iterTypes_custom, iterTypes_map] at hu
    rcases List.mem_cons.1 hu with rfl | hu
    · exact .refl
    · exact .part (by simp [parts]) (ih u hu)
  | map k v ihk ihv =>
    intro u hu
    simp only [iterTypes_optional, iterTypes_sequence, iterTypes_set, iterTypes_custom, iterTypes_map] at hu
    simp only [List.mem_cons, List.mem_append] at hu
    rcases hu with rfl | hu | hu
    · exact .refl
    · exact .part (by simp [parts]) (ihk u hu)
    · exact .part (by simp [parts]) (ihv u hu)
  | _ =>
    intro u hu
    unfold iterTypes iterNested at hu
    simp at hu
    subst hu
    exact .refl

theorem mem_iterTypes_self (t : MTy) : t ∈ iterTypes t := by unfold iterTypes; simp

theorem iterTypes_complete {u t : MTy} (h : Inside u t) : boxFree t → u ∈ iterTypes t := by
  induction h with
  | refl => intro _; exact mem_iterTypes_self _
  | @part s t hp _ ih =>
    intro hb
    cases t <;> simp only [parts, List.mem_cons, List.not_mem_nil, or_false] at hp
    case map k v =>
      simp only [boxFree, Bool.and_eq_true] at hb
      simp only [iterTypes_optional, iterTypes_sequence, iterTypes_set, iterTypes_custom, iterTypes_map]
      rcases hp with rfl | rfl
      · simp [ih hb.1]
      · simp [ih hb.2]
    case box => simp [boxFree] at hb
    all_goals
      subst hp
      simp only [boxFree] at hb
      simp only [iterTypes_optional, iterTypes_sequence, iterTypes_set, iterTypes_custom, iterTypes_map]
      simp [ih hb]

theorem boxFree_inside {u t : MTy} (h : Inside u t) : boxFree t → boxFree u := by
  induction h with
  | refl => exact id
  | @part s t hp _ ih =>
    intro hb
    apply ih
    cases t <;> simp only [parts, List.mem_cons, List.not_mem_nil, or_false] at hp
    case map k v =>
      simp only [boxFree, Bool.and_eq_true] at hb
      rcases hp with rfl | rfl
      · exact hb.1
      · exact hb.2
    case box => simp [boxFree] at hb
    all_goals subst hp; simpa [boxFree] using hb

theorem namesIn_renameRecursive (f : String → String) (t : MTy) :
    boxFree t → namesIn (renameRecursive f t) = (namesIn t).map f := by
  induction t with
  | map k v ihk ihv =>
    intro hb
    simp only [boxFree, Bool.and_eq_true] at hb
    simp [renameRecursive, namesIn, ihk hb.1, ihv hb.2]
  | optional t ih | sequence t ih | set t ih | custom m n t ih =>
    intro hb
    simp only [boxFree] at hb
    simp [renameRecursive, namesIn, ih hb]
  | box t ih => intro hb; simp [boxFree] at hb
  | _ => intro _; simp [renameRecursive, renameSelf, tyName, rename, namesIn]

theorem blank_renameRecursive (f : String → String) (t : MTy) :
    blank (renameRecursive f t) = blank t := by
  induction t with
  | map k v ihk ihv => simp [renameRecursive, blank, ihk, ihv]
  | optional t ih | sequence t ih | set t ih | custom m n t ih => simp [renameRecursive, blank, ih]
  | box t ih => simp [renameRecursive, renameSelf, tyName]
  | _ => simp [renameRecursive, renameSelf, tyName, rename, blank]

/-! Known types -/

theorem beforeColons_idem : ∀ cs : List Char, beforeColons (beforeColons cs) = beforeColons cs
  | [] => rfl
  | [c] => by unfold beforeColons; split <;> simp_all [beforeColons]
  | c :: d :: cs => by
    by_cases h : c = ':' ∧ d = ':'
    · obtain ⟨rfl, rfl⟩ := h; rfl
    · have e : beforeColons (c :: d :: cs) = c :: beforeColons (d :: cs) := by
        rw [beforeColons]
        intro _ hc hd
        simp only [List.cons.injEq] at hd
        exact h ⟨hc, hd.1⟩
      rw [e]
      have ih := beforeColons_idem (d :: cs)
      by_cases h2 : c = ':' ∧ ∃ r, beforeColons (d :: cs) = ':' :: r
      · exfalso
        obtain ⟨hc, r, hr⟩ := h2
        -- the first character kept is `d`
        have : d = ':' := by
          unfold beforeColons at hr
          split at hr
          · simp at hr
          · simp at hr
          · rename_i heq
            simp only [List.cons.injEq] at hr heq
            rw [heq.1, hr.1]
        exact h ⟨hc, this⟩
      · rw [beforeColons, ih]
        intro r hc hr
        exact h2 ⟨hc, r, hr⟩

theorem crateName_idem (m : String) : crateName (crateName m) = crateName m := by
  simp [crateName, beforeColons_idem]

theorem normalize_idem (t : MTy) : normalize (normalize t) = normalize t := by
  induction t <;> simp_all [normalize, crateName_idem]

/-- What one call of `add_known_type` does to the set of known types. -/
def KnownBy (u u' : Universe) (ts : List MTy) : Prop :=
  (∀ x ∈ u'.known, normalize x = x) ∧
  ∀ x, x ∈ u'.known ↔ x ∈ u.known ∨ ∃ t ∈ ts, ∃ s ∈ iterTypes t, x = normalize s

/-- What the definitions are after adding `ts`: nothing is forgotten, and every named type that is
visited is defined, up to module paths. -/
def DefsBy (u u' : Universe) (ts : List MTy) : Prop :=
  (∀ n t, lookupDef u.defs n = some t → lookupDef u'.defs n = some t) ∧
  (∀ t ∈ ts, ∀ s ∈ iterTypes t, ∀ n, tyName s = some n →
    ∃ d, lookupDef u'.defs n = some d ∧ normalize d = normalize s)

theorem insertKnown_known (u : Universe) (t : MTy) (h : ∀ x ∈ u.known, normalize x = x) :
    (∀ x ∈ (insertKnown u t).known, normalize x = x) ∧
    (∀ x, x ∈ (insertKnown u t).known ↔ x ∈ u.known ∨ x = normalize t) ∧
    (insertKnown u t).defs = u.defs := by
  unfold insertKnown
  split
  · rename_i hm
    refine ⟨h, fun x => ⟨.inl, ?_⟩, rfl⟩
    rintro (hx | rfl)
    · exact hx
    · rw [h t hm]; exact hm
  · split
    · rename_i hm
      refine ⟨h, fun x => ⟨.inl, ?_⟩, rfl⟩
      rintro (hx | rfl)
      · exact hx
      · exact hm
    · refine ⟨?_, by simp, rfl⟩
      intro x hx
      simp only [List.mem_append, List.mem_singleton] at hx
      rcases hx with hx | rfl
      · exact h x hx
      · exact normalize_idem t

theorem lookupDef_append (ds : List (String × MTy)) (k : String) (t : MTy) (n : String) :
    lookupDef (ds ++ [(k, t)]) n =
      match lookupDef ds n with
      | some x => some x
      | none => if k = n then some t else none := by
  induction ds with
  | nil => simp [lookupDef]
  | cons d ds ih =>
    obtain ⟨k', t'⟩ := d
    simp only [List.cons_append, lookupDef]
    split
    · rfl
    · exact ih

theorem addTypeDefinition_spec {u u' : Universe} {n : String} {t : MTy}
    (h : addTypeDefinition u n t = some u') :
    u'.known = u.known ∧
    (∀ k x, lookupDef u.defs k = some x → lookupDef u'.defs k = some x) ∧
    ∃ d, lookupDef u'.defs n = some d ∧ normalize d = normalize t := by
  unfold addTypeDefinition at h
  split at h
  · rename_i cur hc
    split at h
    · rename_i he
      cases h
      exact ⟨rfl, fun _ _ h => h, cur, hc, he.symm⟩
    · simp at h
  · rename_i hc
    cases h
    refine ⟨rfl, ?_, t, ?_, rfl⟩
    · intro k x hk
      rw [lookupDef_append, hk]
    · rw [lookupDef_append, hc]; simp

theorem DefsBy.trans {a b c : Universe} {xs ys : List MTy} (h : DefsBy a b xs) (h' : DefsBy b c ys) :
    DefsBy a c (xs ++ ys) := by
  refine ⟨fun n t hn => h'.1 n t (h.1 n t hn), ?_⟩
  intro t ht s hs n hn
  rcases List.mem_append.1 ht with ht | ht
  · obtain ⟨d, hd, e⟩ := h.2 t ht s hs n hn
    exact ⟨d, h'.1 n d hd, e⟩
  · exact h'.2 t ht s hs n hn

theorem KnownBy.trans {a b c : Universe} {xs ys : List MTy} (h : KnownBy a b xs)
    (h' : KnownBy b c ys) : KnownBy a c (xs ++ ys) := by
  refine ⟨h'.1, fun x => ?_⟩
  rw [h'.2, h.2]
  simp only [List.mem_append]
  grind

theorem KnownBy.normal {u u' : Universe} {ts : List MTy} (h : KnownBy u u' ts) :
    ∀ x ∈ u'.known, normalize x = x := h.1

theorem iterTypes_subset {s t : MTy} (h : s ∈ iterTypes t) : ∀ x ∈ iterTypes s, x ∈ iterTypes t := by
  induction t with
  | optional t ih | sequence t ih | set t ih | custom m n t ih =>
    simp only [iterTypes_optional, iterTypes_sequence, iterTypes_set, iterTypes_custom, iterTypes_map] at h
    rcases List.mem_cons.1 h with rfl | h
    · exact fun x hx => hx
    · intro x hx
      simp only [iterTypes_optional, iterTypes_sequence, iterTypes_set, iterTypes_custom, iterTypes_map]
      exact List.mem_cons_of_mem _ (ih h x hx)
  | map k v ihk ihv =>
    simp only [iterTypes_optional, iterTypes_sequence, iterTypes_set, iterTypes_custom, iterTypes_map] at h
    simp only [List.mem_cons, List.mem_append] at h
    rcases h with rfl | h | h
    · exact fun x hx => hx
    · intro x hx
      simp only [iterTypes_optional, iterTypes_sequence, iterTypes_set, iterTypes_custom, iterTypes_map]
      simp [ihk h x hx]
    · intro x hx
      simp only [iterTypes_optional, iterTypes_sequence, iterTypes_set, iterTypes_custom, iterTypes_map]
      simp [ihv h x hx]
  | _ =>
    unfold iterTypes iterNested at h
    simp at h
    subst h
    exact fun x hx => hx

mutual
theorem addKnownType_spec (u : Universe) (t : MTy) (u' : Universe)
    (hn : ∀ x ∈ u.known, normalize x = x) (h : addKnownType u t = some u') :
    KnownBy u u' [t] ∧ DefsBy u u' [t] := by
  unfold addKnownType at h
  obtain ⟨i1, i2, i3⟩ := insertKnown_known u t hn
  split at h
  · simp at h
  · rename_i u1 h1
    obtain ⟨k, d⟩ := addNested_spec (insertKnown u t) t (iterNested t) (sizeOf_mem_iterNested t) u1 i1 h1
    -- the known types after the loop
    have kn : ∀ x, x ∈ u1.known ↔ x ∈ u.known ∨ ∃ s ∈ iterTypes t, x = normalize s := by
      intro x
      rw [k.2, i2]
      rw [show iterTypes t = t :: iterNested t by unfold iterTypes; rfl]
      simp only [List.mem_cons]
      constructor
      · rintro ((hx | rfl) | ⟨s, hs, y, hy, rfl⟩)
        · exact .inl hx
        · exact .inr ⟨t, .inl rfl, rfl⟩
        · refine .inr ⟨y, ?_, rfl⟩
          have : y ∈ iterTypes t := iterTypes_subset (s := s) (by unfold iterTypes; simp [hs]) y hy
          unfold iterTypes at this
          simpa using this
      · rintro (hx | ⟨s, rfl | hs, rfl⟩)
        · exact .inl (.inl hx)
        · exact .inl (.inr rfl)
        · exact .inr ⟨s, hs, s, mem_iterTypes_self s, rfl⟩
    have dn : ∀ s ∈ iterNested t, ∀ n, tyName s = some n →
        ∃ x, lookupDef u1.defs n = some x ∧ normalize x = normalize s :=
      fun s hs => d.2 s hs s (mem_iterTypes_self s)
    have dk : ∀ n x, lookupDef u.defs n = some x → lookupDef u1.defs n = some x := by
      intro n x hx; apply d.1; rw [i3]; exact hx
    split at h
    · rename_i n hname
      obtain ⟨a1, a2, a3⟩ := addTypeDefinition_spec h
      refine ⟨⟨by rw [a1]; exact k.1, fun x => by rw [a1, kn]; simp⟩, fun m x hx => a2 m x (dk m x hx), ?_⟩
      intro t' ht' s hs m hm
      rw [List.mem_singleton.1 ht'] at hs
      unfold iterTypes at hs
      rcases List.mem_cons.1 hs with rfl | hs
      · rw [hname] at hm; cases hm; exact a3
      · obtain ⟨x, hx, e⟩ := dn s hs m hm
        exact ⟨x, a2 m x hx, e⟩
    · rename_i hname
      cases h
      refine ⟨⟨k.1, fun x => by rw [kn]; simp⟩, dk, ?_⟩
      intro t' ht' s hs m hm
      rw [List.mem_singleton.1 ht'] at hs
      unfold iterTypes at hs
      rcases List.mem_cons.1 hs with rfl | hs
      · rw [hname] at hm; simp at hm
      · exact dn s hs m hm
termination_by (sizeOf t, 1, 0)

theorem addNested_spec (u : Universe) (t : MTy) (ts : List MTy)
    (hs : ∀ s ∈ ts, sizeOf s < sizeOf t) (u' : Universe)
    (hn : ∀ x ∈ u.known, normalize x = x) (h : addNested u t ts hs = some u') :
    KnownBy u u' ts ∧ DefsBy u u' ts := by
  match ts, hs, h with
  | [], _, h =>
    unfold addNested at h
    cases h
    exact ⟨⟨hn, by simp⟩, fun _ _ h => h, by simp⟩
  | s :: ss, hs, h =>
    unfold addNested at h
    split at h
    · simp at h
    · rename_i u1 h1
      have a := addKnownType_spec u s u1 hn h1
      have b := addNested_spec u1 t ss (fun x hx => hs x (List.mem_cons_of_mem _ hx)) u' a.1.1 h
      exact ⟨a.1.trans b.1, a.2.trans b.2⟩
termination_by (sizeOf t, 0, ts.length)
decreasing_by
  · exact Prod.Lex.left _ _ (hs s (List.mem_cons_self ..))
  · apply Prod.Lex.right; apply Prod.Lex.right; simp
end

theorem addKnownTypes_spec (ts : List MTy) : ∀ (u u' : Universe),
    (∀ x ∈ u.known, normalize x = x) → addKnownTypes u ts = some u' →
    KnownBy u u' ts ∧ DefsBy u u' ts := by
  induction ts with
  | nil =>
    intro u u' hn h
    simp only [addKnownTypes, Option.some.injEq] at h
    subst h
    exact ⟨⟨hn, by simp⟩, fun _ _ h => h, by simp⟩
  | cons t ts ih =>
    intro u u' hn h
    simp only [addKnownTypes, Option.bind_eq_some_iff] at h
    obtain ⟨u1, h1, h2⟩ := h
    have a := addKnownType_spec u t u1 hn h1
    have b := ih u1 u' a.1.1 h2
    exact ⟨a.1.trans b.1, a.2.trans b.2⟩

/-! When types are accepted -/

/-- Every visited name has the type `g` gives it. -/
def Fits (g : String → MTy) (ts : List MTy) : Prop :=
  ∀ t ∈ ts, ∀ s ∈ iterTypes t, ∀ n, tyName s = some n → normalize s = g n

/-- The definitions have the types `g` gives them. -/
def DefsFit (g : String → MTy) (u : Universe) : Prop :=
  ∀ n d, lookupDef u.defs n = some d → normalize d = g n

mutual
theorem addKnownType_ok (g : String → MTy) (u : Universe) (t : MTy)
    (hu : DefsFit g u) (ht : Fits g [t]) : ∃ u', addKnownType u t = some u' ∧ DefsFit g u' := by
  have hi : DefsFit g (insertKnown u t) := by
    intro n d h
    apply hu n d
    unfold insertKnown at h
    split at h
    · exact h
    · split at h <;> exact h
  obtain ⟨u1, e1, d1⟩ := addNested_ok g (insertKnown u t) t (iterNested t) (sizeOf_mem_iterNested t) hi (by
    intro s hs x hx
    exact ht t (by simp) x (iterTypes_subset (s := s) (by unfold iterTypes; simp [hs]) x hx))
  unfold addKnownType
  rw [e1]
  dsimp only
  split
  · rename_i n hn
    have hg := ht t (by simp) t (mem_iterTypes_self t) n hn
    unfold addTypeDefinition
    split
    · rename_i cur hc
      rw [if_pos (by rw [hg, d1 n cur hc])]
      exact ⟨u1, rfl, d1⟩
    · refine ⟨_, rfl, ?_⟩
      intro m d hd
      rw [lookupDef_append] at hd
      split at hd
      · rename_i x hx; cases hd; exact d1 m _ hx
      · split at hd
        · rename_i e; cases hd; rw [← e]; exact hg
        · simp at hd
  · exact ⟨u1, rfl, d1⟩
termination_by (sizeOf t, 1, 0)

theorem addNested_ok (g : String → MTy) (u : Universe) (t : MTy) (ts : List MTy)
    (hs : ∀ s ∈ ts, sizeOf s < sizeOf t) (hu : DefsFit g u) (ht : Fits g ts) :
    ∃ u', addNested u t ts hs = some u' ∧ DefsFit g u' := by
  match ts, hs, ht with
  | [], _, _ => exact ⟨u, by unfold addNested; rfl, hu⟩
  | s :: ss, hs, ht =>
    obtain ⟨u1, e1, d1⟩ := addKnownType_ok g u s hu (fun x hx => by
      rw [List.mem_singleton.1 hx]; exact ht s (by simp))
    obtain ⟨u2, e2, d2⟩ := addNested_ok g u1 t ss (fun x hx => hs x (List.mem_cons_of_mem _ hx)) d1
      (fun x hx => ht x (by simp [hx]))
    unfold addNested
    rw [e1]
    exact ⟨u2, e2, d2⟩
termination_by (sizeOf t, 0, ts.length)
decreasing_by
  · exact Prod.Lex.left _ _ (hs s (List.mem_cons_self ..))
  · apply Prod.Lex.right; apply Prod.Lex.right; simp
end

theorem addKnownTypes_ok (g : String → MTy) (ts : List MTy) : ∀ (u : Universe),
    DefsFit g u → Fits g ts → ∃ u', addKnownTypes u ts = some u' := by
  induction ts with
  | nil => intro u _ _; exact ⟨u, rfl⟩
  | cons t ts ih =>
    intro u hu ht
    obtain ⟨u1, e1, d1⟩ := addKnownType_ok g u t hu (fun x hx => by
      rw [List.mem_singleton.1 hx]; exact ht t (by simp))
    obtain ⟨u2, e2⟩ := ih u1 d1 (fun x hx => ht x (by simp [hx]))
    exact ⟨u2, by simp [addKnownTypes, e1, e2]⟩

/-! The iterator over everything reachable -/

/-- The types that `iter_types` of a definition yields, given the types of its fields. -/
def defsOf (fields : MTy → Option (List MTy)) : Defs := fun t =>
  (fields t).map fun fs => fs.flatMap iterTypes

/-- What holds while the iterator runs; `out` is what it has returned so far. -/
structure WalkInv (defs : Defs) (t : MTy) (out : List MTy) (st : WalkSt) : Prop where
  start : ∀ u ∈ iterTypes t, u ∈ out ∨ u ∈ st.current
  seen : ∀ u ∈ out, ∀ k, pendingKey u = some k → k ∈ st.seen
  done : ∀ k ∈ st.seen, ∃ v, pendingKey v = some k ∧
    (v ∈ st.pending ∨ ∀ ts, defs v = some ts → ∀ u ∈ ts, u ∈ out ∨ u ∈ st.current)

theorem WalkInv.step {defs : Defs} {t : MTy} {out ts : List MTy} {st st' : WalkSt}
    (h : WalkInv defs t out st) (hs : walkStep defs st = some (ts, st')) :
    WalkInv defs t (out ++ ts) st' := by
  unfold walkStep at hs
  split at hs
  · rename_i x rest hc
    simp only [Option.some.injEq, Prod.mk.injEq] at hs
    obtain ⟨rfl, rfl⟩ := hs
    have move : ∀ u, u ∈ out ∨ u ∈ st.current → u ∈ out ++ [x] ∨ u ∈ rest := by
      intro u hu; rw [hc] at hu; simp at hu ⊢; grind
    unfold addPending
    cases hk : pendingKey x with
    | none =>
      dsimp only
      refine ⟨fun u hu => move u (h.start u hu), ?_, ?_⟩
      · intro u hu k huk
        rcases List.mem_append.1 hu with hu | hu
        · exact h.seen u hu k huk
        · rw [List.mem_singleton.1 hu, hk] at huk; simp at huk
      · intro k hks
        obtain ⟨v, hv, hp | hd⟩ := h.done k hks
        · exact ⟨v, hv, .inl hp⟩
        · exact ⟨v, hv, .inr fun ts hts u hu => move u (hd ts hts u hu)⟩
    | some k0 =>
      dsimp only
      split
      · rename_i hin
        refine ⟨fun u hu => move u (h.start u hu), ?_, ?_⟩
        · intro u hu k huk
          rcases List.mem_append.1 hu with hu | hu
          · exact h.seen u hu k huk
          · rw [List.mem_singleton.1 hu, hk] at huk; cases huk; exact hin
        · intro k hks
          obtain ⟨v, hv, hp | hd⟩ := h.done k hks
          · exact ⟨v, hv, .inl hp⟩
          · exact ⟨v, hv, .inr fun ts hts u hu => move u (hd ts hts u hu)⟩
      · refine ⟨fun u hu => move u (h.start u hu), ?_, ?_⟩
        · intro u hu k huk
          rcases List.mem_append.1 hu with hu | hu
          · exact List.mem_cons_of_mem _ (h.seen u hu k huk)
          · rw [List.mem_singleton.1 hu, hk] at huk; cases huk; simp
        · intro k hks
          rcases List.mem_cons.1 hks with rfl | hks
          · exact ⟨x, hk, .inl (by simp)⟩
          · obtain ⟨v, hv, hp | hd⟩ := h.done k hks
            · exact ⟨v, hv, .inl (by simp [hp])⟩
            · exact ⟨v, hv, .inr fun ts hts u hu => move u (hd ts hts u hu)⟩
  · rename_i hc
    split at hs
    · simp at hs
    · rename_i x pending hp
      simp only [Option.some.injEq, Prod.mk.injEq] at hs
      obtain ⟨rfl, rfl⟩ := hs
      simp only [List.append_nil]
      refine ⟨fun u hu => ?_, h.seen, ?_⟩
      · have := h.start u hu; rw [hc] at this; simp at this; exact .inl this
      · intro k hks
        obtain ⟨v, hv, hpv | hd⟩ := h.done k hks
        · rw [hp] at hpv
          rcases List.mem_cons.1 hpv with rfl | hpv
          · refine ⟨v, hv, .inr fun ts hts u hu => .inr ?_⟩
            dsimp only; rw [hts]; exact hu
          · exact ⟨v, hv, .inl hpv⟩
        · refine ⟨v, hv, .inr fun ts hts u hu => .inl ?_⟩
          have := hd ts hts u hu
          rw [hc] at this; simpa using this

theorem WalkInv.end {defs : Defs} {t : MTy} {out : List MTy} {st : WalkSt}
    (h : WalkInv defs t out st) (hs : walkStep defs st = none) :
    (∀ u ∈ iterTypes t, u ∈ out) ∧
    ∀ u ∈ out, ∀ k, pendingKey u = some k →
      ∃ v, pendingKey v = some k ∧ ∀ ts, defs v = some ts → ∀ x ∈ ts, x ∈ out := by
  unfold walkStep at hs
  split at hs
  · simp at hs
  · rename_i hc
    split at hs
    · rename_i hp
      refine ⟨fun u hu => ?_, fun u hu k hk => ?_⟩
      · have := h.start u hu; rw [hc] at this; simpa using this
      · obtain ⟨v, hv, hpv | hd⟩ := h.done k (h.seen u hu k hk)
        · rw [hp] at hpv; simp at hpv
        · refine ⟨v, hv, fun ts hts x hx => ?_⟩
          have := hd ts hts x hx
          rw [hc] at this; simpa using this
    · simp at hs

theorem walk_closed (defs : Defs) (t : MTy) : ∀ (fuel : Nat) (st : WalkSt) (out res : List MTy),
    WalkInv defs t out st → walk defs fuel st = some res →
    (∀ u ∈ iterTypes t, u ∈ out ++ res) ∧
    ∀ u ∈ out ++ res, ∀ k, pendingKey u = some k →
      ∃ v, pendingKey v = some k ∧ ∀ ts, defs v = some ts → ∀ x ∈ ts, x ∈ out ++ res := by
  intro fuel
  induction fuel with
  | zero => intro st out res _ h; simp [walk] at h
  | succ fuel ih =>
    intro st out res hinv h
    unfold walk at h
    split at h
    · rename_i hs
      cases h
      simp only [List.append_nil]
      exact hinv.end hs
    · rename_i ts st' hs
      simp only [Option.map_eq_some_iff] at h
      obtain ⟨r, hr, rfl⟩ := h
      have := ih st' (out ++ ts) r (hinv.step hs) hr
      rwa [List.append_assoc] at this

theorem walk_sound (defs : Defs) (P : MTy → Prop)
    (hP : ∀ v ts, P v → defs v = some ts → ∀ u ∈ ts, P u) :
    ∀ (fuel : Nat) (st : WalkSt) (res : List MTy),
    (∀ u ∈ st.current, P u) → (∀ u ∈ st.pending, P u) → walk defs fuel st = some res →
    ∀ u ∈ res, P u := by
  intro fuel
  induction fuel with
  | zero => intro st res _ _ h; simp [walk] at h
  | succ fuel ih =>
    intro st res hc hp h
    unfold walk at h
    split at h
    · cases h; simp
    · rename_i ts st' hs
      simp only [Option.map_eq_some_iff] at h
      obtain ⟨r, hr, rfl⟩ := h
      unfold walkStep at hs
      split at hs
      · rename_i x rest hcur
        simp only [Option.some.injEq, Prod.mk.injEq] at hs
        obtain ⟨rfl, rfl⟩ := hs
        rw [hcur] at hc
        have hx : P x := hc x (by simp)
        have key := ih _ r ?_ ?_ hr
        · intro u hu
          rcases List.mem_append.1 hu with hu | hu
          · rw [List.mem_singleton.1 hu]; exact hx
          · exact key u hu
        · intro u hu
          have : u ∈ rest := by
            unfold addPending at hu
            split at hu
            · exact hu
            · split at hu <;> exact hu
          exact hc u (by simp [this])
        · intro u hu
          unfold addPending at hu
          split at hu
          · exact hp u hu
          · split at hu
            · exact hp u hu
            · rcases List.mem_cons.1 hu with rfl | hu
              · exact hx
              · exact hp u hu
      · split at hs
        · simp at hs
        · rename_i x pending hpend
          simp only [Option.some.injEq, Prod.mk.injEq] at hs
          obtain ⟨rfl, rfl⟩ := hs
          rw [hpend] at hp
          simp only [List.nil_append]
          refine ih _ r ?_ (fun u hu => hp u (by simp [hu])) hr
          intro u hu
          dsimp only at hu
          cases hd : defs x with
          | none => rw [hd] at hu; simp at hu
          | some ts => rw [hd] at hu; exact hP x ts (hp x (by simp)) hd u hu

/-- How many steps are left at most, when `K` are the keys of the definitions and none of them
yields more than `B` types. -/
def walkMeasure (defs : Defs) (K : List (String × String)) (B : Nat) (st : WalkSt) : Nat :=
  (2 * B + 1) * (K.filter fun k => k ∉ st.seen).length +
    (st.pending.map fun t => 2 * ((defs t).getD []).length + 1).sum + 2 * st.current.length

theorem filter_seen_le (K : List (String × String)) (seen : List (String × String)) (k : String × String) :
    (K.filter fun x => x ∉ k :: seen).length ≤ (K.filter fun x => x ∉ seen).length := by
  induction K with
  | nil => simp
  | cons x K ih => simp only [List.filter_cons]; split <;> split <;> simp_all <;> omega

theorem filter_seen_lt (K : List (String × String)) (seen : List (String × String)) (k : String × String)
    (hk : k ∈ K) (hs : k ∉ seen) :
    (K.filter fun x => x ∉ k :: seen).length + 1 ≤ (K.filter fun x => x ∉ seen).length := by
  induction K with
  | nil => simp at hk
  | cons x K ih =>
    rcases List.mem_cons.1 hk with rfl | hk
    · have := filter_seen_le K seen k
      simp only [List.filter_cons]
      split <;> split <;> simp_all
    · have := ih hk
      simp only [List.filter_cons]
      split <;> split <;> simp_all <;> omega

theorem walkMeasure_step {defs : Defs} {K : List (String × String)} {B : Nat}
    (hf : ∀ t ts, defs t = some ts → ts.length ≤ B ∧ ∃ k ∈ K, pendingKey t = some k)
    {st st' : WalkSt} {ts : List MTy} (h : walkStep defs st = some (ts, st')) :
    walkMeasure defs K B st' < walkMeasure defs K B st := by
  unfold walkStep at h
  split at h
  · rename_i x rest hc
    simp only [Option.some.injEq, Prod.mk.injEq] at h
    obtain ⟨rfl, rfl⟩ := h
    unfold addPending
    split
    · simp only [walkMeasure, hc, List.length_cons]; omega
    · rename_i k hk
      dsimp only
      split
      · simp only [walkMeasure, hc, List.length_cons]; omega
      · rename_i hns
        simp only [walkMeasure, hc, List.length_cons, List.map_cons, List.sum_cons]
        cases hd : defs x with
        | none =>
          have := Nat.mul_le_mul_left (2 * B + 1) (filter_seen_le K st.seen k)
          simp only [Option.getD_none, List.length_nil]
          omega
        | some ts =>
          obtain ⟨hB, k', hk', e⟩ := hf x ts hd
          rw [hk] at e; cases e
          have := Nat.mul_le_mul_left (2 * B + 1) (filter_seen_lt K st.seen k hk' hns)
          rw [Nat.mul_add] at this
          simp only [Option.getD_some]
          omega
  · rename_i hc
    split at h
    · simp at h
    · rename_i x pending hp
      simp only [Option.some.injEq, Prod.mk.injEq] at h
      obtain ⟨rfl, rfl⟩ := h
      simp only [walkMeasure, hc, hp, List.map_cons, List.sum_cons, List.length_nil]
      omega

theorem walk_terminates {defs : Defs} {K : List (String × String)} {B : Nat}
    (hf : ∀ t ts, defs t = some ts → ts.length ≤ B ∧ ∃ k ∈ K, pendingKey t = some k) :
    ∀ (n : Nat) (st : WalkSt), walkMeasure defs K B st < n → ∃ res, walk defs n st = some res := by
  intro n
  induction n with
  | zero => intro st h; omega
  | succ n ih =>
    intro st h
    unfold walk
    split
    · exact ⟨[], rfl⟩
    · rename_i ts st' hs
      obtain ⟨r, hr⟩ := ih st' (by have := walkMeasure_step hf hs; omega)
      exact ⟨ts ++ r, by simp [hr]⟩

/-- More fuel does not change the result. -/
theorem walk_mono {defs : Defs} : ∀ (n m : Nat) (st : WalkSt) (a b : List MTy),
    walk defs n st = some a → walk defs m st = some b → a = b := by
  intro n
  induction n with
  | zero => intro m st a b h; simp [walk] at h
  | succ n ih =>
    intro m st a b h h'
    cases m with
    | zero => simp [walk] at h'
    | succ m =>
      unfold walk at h h'
      split at h
      · rename_i hs; rw [hs] at h'; simp at h h'; rw [h, ← h']
      · rename_i ts st' hs
        rw [hs] at h'
        simp only [Option.map_eq_some_iff] at h h'
        obtain ⟨r, hr, rfl⟩ := h
        obtain ⟨r', hr', rfl⟩ := h'
        rw [ih m st' r r' hr hr']

end Verif.Gen
