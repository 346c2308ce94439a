import Verif.Gen.DocsSpec
import Mathlib.Data.List.Chain

/-!
# Lemmas on documentation in generated bindings
-/

namespace Verif.Gen.Docs

open Verif.Gen.DocsSpec

/-! ## Lines -/

theorem splitNl_ne (s : Text) : splitNl s ≠ [] := by
  induction s with
  | nil => simp [splitNl]
  | cons c s ih =>
    rw [splitNl]
    cases h : splitNl s with
    | nil => exact absurd h ih
    | cons l ls => simp only; split <;> simp

theorem joinNl_cons (l : Text) {ls : List Text} (h : ls ≠ []) : joinNl (l :: ls) = l ++ '\n' :: joinNl ls := by
  cases ls with
  | nil => simp at h
  | cons m ls => rfl

theorem join_split (s : Text) : joinNl (splitNl s) = s := by
  induction s with
  | nil => rfl
  | cons c s ih =>
    have hn := splitNl_ne s
    rw [splitNl]
    cases h : splitNl s with
    | nil => exact absurd h hn
    | cons l ls =>
      rw [h] at ih
      simp only
      split
      · rename_i hc
        rw [joinNl_cons _ (by simp), ih, hc]; rfl
      · cases ls with
        | nil => simp only [joinNl] at ih ⊢; rw [ih]
        | cons m ls => simp only [joinNl] at ih ⊢; rw [List.cons_append, ih]

theorem split_no (s : Text) : ∀ l ∈ splitNl s, '\n' ∉ l := by
  induction s with
  | nil => simp [splitNl]
  | cons c s ih =>
    rw [splitNl]
    cases h : splitNl s with
    | nil => simp
    | cons l ls =>
      rw [h] at ih
      simp only
      split
      · intro x hx
        rcases List.mem_cons.1 hx with rfl | hx
        · simp
        · exact ih x hx
      · rename_i hc
        intro x hx
        rcases List.mem_cons.1 hx with rfl | hx
        · intro hm
          rcases List.mem_cons.1 hm with hm | hm
          · exact hc hm.symm
          · exact ih l (by simp) hm
        · exact ih x (by simp [hx])

theorem split_append (l s : Text) (hl : '\n' ∉ l) : splitNl (l ++ s) =
    match splitNl s with
    | m :: ms => (l ++ m) :: ms
    | [] => [] := by
  induction l with
  | nil =>
    cases h : splitNl s with
    | nil => exact absurd h (splitNl_ne s)
    | cons m ms => simp [h]
  | cons c l ih =>
    have hl' : '\n' ∉ l := fun h => hl (by simp [h])
    have hc : c ≠ '\n' := fun h => hl (by simp [h])
    rw [List.cons_append, splitNl, ih hl']
    cases h : splitNl s with
    | nil => exact absurd h (splitNl_ne s)
    | cons m ms => simp [hc]

theorem split_self {l : Text} (h : '\n' ∉ l) : splitNl l = [l] := by
  have := split_append l [] h
  simpa [splitNl] using this

theorem split_nl (s : Text) : splitNl ('\n' :: s) = [] :: splitNl s := by
  rw [splitNl]
  cases h : splitNl s with
  | nil => exact absurd h (splitNl_ne s)
  | cons m ms => simp

theorem split_line (l s : Text) (h : '\n' ∉ l) : splitNl (l ++ '\n' :: s) = l :: splitNl s := by
  rw [split_append l _ h, split_nl]; simp

theorem split_join : ∀ {ls : List Text}, ls ≠ [] → (∀ l ∈ ls, '\n' ∉ l) → splitNl (joinNl ls) = ls
  | [], h, _ => absurd rfl h
  | [l], _, h => split_self (h l (by simp))
  | l :: m :: ls, _, h => by
    rw [joinNl, split_line _ _ (h l (by simp)),
      split_join (by simp) fun x hx => h x (List.mem_cons_of_mem _ hx)]

theorem join_append {a b : List Text} (ha : a ≠ []) (hb : b ≠ []) : joinNl (a ++ b) = joinNl a ++ '\n' :: joinNl b := by
  induction a with
  | nil => exact absurd rfl ha
  | cons l a ih =>
    cases a with
    | nil => rw [List.singleton_append, joinNl_cons _ hb]; rfl
    | cons m a => rw [List.cons_append, joinNl_cons _ (by simp), ih (by simp), joinNl]; simp

theorem split_append_nl (a b : Text) : splitNl (a ++ '\n' :: b) = splitNl a ++ splitNl b := by
  have h := join_append (splitNl_ne a) (splitNl_ne b)
  rw [join_split, join_split] at h
  rw [← h, split_join (by simp [splitNl_ne])]
  intro l hl
  rcases List.mem_append.1 hl with hl | hl
  · exact split_no a l hl
  · exact split_no b l hl

theorem drop_mem {ls : List Text} {l : Text} (h : l ∈ dropEmptyLast ls) : l ∈ ls := by
  induction ls with
  | nil => exact h
  | cons m ls ih =>
    cases ls with
    | nil =>
      rw [dropEmptyLast] at h
      split at h
      · simp at h
      · exact h
    | cons n ls =>
      rw [dropEmptyLast] at h
      rcases List.mem_cons.1 h with rfl | h
      · simp
      · exact List.mem_cons_of_mem _ (ih h)

theorem drop_append (ls : List Text) {l : Text} (h : l ≠ []) : dropEmptyLast (ls ++ [l]) = ls ++ [l] := by
  induction ls with
  | nil => simp [dropEmptyLast, h]
  | cons m ls ih =>
    cases ls with
    | nil => simp [dropEmptyLast, h]
    | cons n ls =>
      simp only [List.cons_append] at ih ⊢
      rw [dropEmptyLast, ih]

theorem drop_append_nil (ls : List Text) : dropEmptyLast (ls ++ [[]]) = ls := by
  induction ls with
  | nil => simp [dropEmptyLast]
  | cons m ls ih =>
    cases ls with
    | nil => simp [dropEmptyLast]
    | cons n ls =>
      simp only [List.cons_append] at ih ⊢
      rw [dropEmptyLast, ih]

theorem last_exists {α} {ls : List α} (h : ls ≠ []) : ∃ a l, ls = a ++ [l] :=
  ⟨ls.dropLast, ls.getLast h, (List.dropLast_concat_getLast h).symm⟩

/-- How a text ends and what its last line is. -/
theorem ends_cases (s : Text) : (s = [] ∧ splitNl s = [[]]) ∨
    (∃ t, s = t ++ ['\n'] ∧ splitNl s = splitNl t ++ [[]] ∧ endsNl s = true) ∨
    (∃ a l, l ≠ [] ∧ splitNl s = a ++ [l] ∧ endsNl s = false) := by
  by_cases hs : s = []
  · exact .inl ⟨hs, by rw [hs]; rfl⟩
  · obtain ⟨t, c, rfl⟩ := last_exists hs
    by_cases hc : c = '\n'
    · subst hc
      exact .inr (.inl ⟨t, rfl, by rw [split_append_nl]; rfl, by simp [endsNl]⟩)
    · obtain ⟨a, l, hl⟩ := last_exists (splitNl_ne (t ++ [c]))
      refine .inr (.inr ⟨a, l, ?_, hl, by simp [endsNl, hc]⟩)
      rintro rfl
      have := join_split (t ++ [c])
      rw [hl] at this
      cases a with
      | nil => simp [joinNl] at this
      | cons x a =>
        rw [join_append (by simp) (by simp)] at this
        have h2 := congrArg List.getLast? this
        simp [joinNl] at h2
        exact hc h2.symm

/-- A text is its lines. -/
theorem join_drop (s : Text) : joinNl (dropEmptyLast (splitNl s)) ++ (if endsNl s then ['\n'] else []) = s := by
  rcases ends_cases s with ⟨rfl, _⟩ | ⟨t, rfl, h, he⟩ | ⟨a, l, hl, h, he⟩
  · rfl
  · rw [h, drop_append_nil, join_split, he, if_pos rfl]
  · rw [h, drop_append _ hl, ← h, join_split, he]; simp

/-! ## Replacing -/

/-- A backslash between `a` and `b`. -/
def ins (a b : Char) : Text → Text
  | [] => []
  | x :: s => x :: if x = a ∧ s.head? = some b then '\\' :: ins a b s else ins a b s

theorem replace_ins (a b : Char) (h : a ≠ b) : ∀ s, replace [a, b] [a, '\\', b] s = ins a b s
  | [] => rfl
  | [x] => by
    have : ¬[a, b] <+: [x] := by
      intro h; have := h.length_le; simp at this
    simp [replace, replaceFrom, ins, this]
  | x :: y :: s => by
    have ih1 := replace_ins a b h s
    have ih2 := replace_ins a b h (y :: s)
    unfold replace at ih1 ih2 ⊢
    by_cases hm : x = a ∧ y = b
    · obtain ⟨rfl, rfl⟩ := hm
      have hp : [x, y] <+: x :: y :: s := ⟨s, rfl⟩
      rw [replaceFrom, if_pos hp]
      simp only [List.length_cons, List.length_nil, Nat.zero_add, Nat.add_sub_cancel]
      rw [replaceFrom, ih1, ins, ins]
      simp [h.symm]
    · have hp : ¬[a, b] <+: x :: y :: s := by
        rintro ⟨t, ht⟩
        simp at ht
        exact hm ⟨ht.1.symm, ht.2.1.symm⟩
      have hm' : ¬(x = a ∧ (y :: s).head? = some b) := by simpa using hm
      rw [replaceFrom, if_neg hp, ih2, ins.eq_2 a b x (y :: s), if_neg hm']

theorem ins_head (a b : Char) (s : Text) : (ins a b s).head? = s.head? := by
  cases s <;> simp [ins]

theorem ins_chain {Q : Char → Char → Prop} (a b : Char) (h1 : ∀ x, Q x '\\') (h2 : ∀ x, Q '\\' x) {s : Text}
    (h : s.IsChain Q) : (ins a b s).IsChain Q := by
  induction s with
  | nil => exact h
  | cons x s ih =>
    have ih := ih h.tail
    rw [ins]
    split
    · refine List.IsChain.cons (ih.cons ?_) ?_
      · intro y _; exact h2 y
      · intro y hy; simp at hy; subst hy; exact h1 x
    · refine ih.cons ?_
      rw [ins_head]
      cases s with
      | nil => simp
      | cons y s => intro z hz; simp at hz; subst hz; exact h.rel

theorem ins_self (a b : Char) (ha : a ≠ '\\') (hb : b ≠ '\\') (s : Text) :
    (ins a b s).IsChain fun x y => ¬(x = a ∧ y = b) := by
  induction s with
  | nil => exact .nil
  | cons x s ih =>
    rw [ins]
    split
    · refine List.IsChain.cons (ih.cons ?_) ?_
      · intro y _ h; exact ha h.1.symm
      · intro y hy h; simp at hy; subst hy; exact hb h.2.symm
    · rename_i hh
      refine ih.cons ?_
      rw [ins_head]
      intro y hy h
      exact hh ⟨h.1, by rw [← h.2]; exact hy⟩

theorem ins_filter (a b : Char) (p : Char → Bool) (hp : p '\\' = false) (s : Text) :
    (ins a b s).filter p = s.filter p := by
  induction s with
  | nil => rfl
  | cons x s ih =>
    rw [ins]
    split <;> simp [List.filter_cons, hp, ih]

/-- No two characters that begin or end a comment. -/
def Apart (x y : Char) : Prop := ¬(x = '*' ∧ y = '/') ∧ ¬(x = '/' ∧ y = '*')

theorem apart_left {x : Char} (h : x ≠ '*' ∧ x ≠ '/') (y : Char) : Apart x y :=
  ⟨fun hh => h.1 hh.1, fun hh => h.2 hh.1⟩

theorem apart_right {y : Char} (h : y ≠ '*' ∧ y ≠ '/') (x : Char) : Apart x y :=
  ⟨fun hh => h.2 hh.2, fun hh => h.1 hh.2⟩

theorem escape_eq (s : Text) : escape s = ins '/' '*' (ins '*' '/' s) := by
  rw [escape, replace_ins _ _ (by decide), replace_ins _ _ (by decide)]

theorem escape_chain (s : Text) : (escape s).IsChain Apart := by
  rw [escape_eq]
  have h1 := ins_chain '/' '*' (Q := fun x y => ¬(x = '*' ∧ y = '/')) (by intro x; simp) (by intro x; simp)
    (ins_self '*' '/' (by decide) (by decide) s)
  have h2 := ins_self '/' '*' (by decide) (by decide) (ins '*' '/' s)
  generalize ins '/' '*' (ins '*' '/' s) = t at h1 h2
  induction t with
  | nil => exact .nil
  | cons x t ih =>
    refine (ih h1.tail h2.tail).cons ?_
    cases t with
    | nil => simp
    | cons y t => intro z hz; simp at hz; subst hz; exact ⟨h1.rel, h2.rel⟩

/-! ## Taking indentation away -/

theorem blank_append (a b : Text) : blank (a ++ b) = (blank a && blank b) := by simp [blank]

theorem mismatch_some : ∀ {l p : Text} {i : Nat}, mismatch l p = some i → l.take i <+: l ∧ l.take i <+: p
  | [], [], _, h => by simp [mismatch] at h
  | [], _ :: _, _, h => by simp [mismatch] at h
  | _ :: _, [], _, h => by simp [mismatch] at h
  | a :: l, b :: p, i, h => by
    rw [mismatch] at h
    split at h
    · simp at h; subst h; simp
    · rename_i hab
      simp at hab
      cases hm : mismatch l p with
      | none => simp [hm] at h
      | some j =>
        simp [hm] at h
        subst h
        have := mismatch_some hm
        exact ⟨List.take_prefix _ _, by rw [List.take_succ_cons, hab]; simpa using this.2⟩

theorem mismatch_none : ∀ {l p : Text}, mismatch l p = none → l <+: p ∨ p <+: l
  | [], _, _ => .inl (by simp)
  | _ :: _, [], _ => .inr (by simp)
  | a :: l, b :: p, h => by
    rw [mismatch] at h
    split at h
    · simp at h
    · rename_i hab
      simp at hab
      subst hab
      have : mismatch l p = none := by simpa using h
      simpa using mismatch_none this

theorem prefix_blank {p q : Text} (h : p <+: q) (hq : blank q = true) : blank p = true := by
  obtain ⟨t, rfl⟩ := h
  rw [blank_append] at hq
  simp at hq; exact hq.1

theorem shorten_prefix (p l : Text) : shorten p l <+: p := by
  unfold shorten
  cases h : mismatch l p with
  | none => exact List.prefix_refl _
  | some i => exact (mismatch_some h).2

theorem shorten_line {p l : Text} (hp : blank p = true) (hl : blank l = false) : shorten p l <+: l := by
  unfold shorten
  cases h : mismatch l p with
  | none =>
    rcases mismatch_none h with h | h
    · rw [prefix_blank h hp] at hl; simp at hl
    · exact h
  | some i => exact (mismatch_some h).1

theorem fold_prefix (ls : List Text) : ∀ p, ls.foldl shorten p <+: p := by
  induction ls with
  | nil => intro p; exact List.prefix_refl _
  | cons l ls ih => intro p; exact (ih _).trans (shorten_prefix p l)

theorem fold_line {ls : List Text} : ∀ {p l : Text}, blank p = true → l ∈ ls → blank l = false →
    ls.foldl shorten p <+: l := by
  induction ls with
  | nil => intro p l _ h; simp at h
  | cons m ls ih =>
    intro p l hp hl hb
    rcases List.mem_cons.1 hl with rfl | hl
    · exact (fold_prefix ls _).trans (shorten_line hp hb)
    · exact ih (prefix_blank (shorten_prefix p m) hp) hl hb

theorem takeWhile_blank (l : Text) : blank (l.takeWhile isWhite) = true := by
  unfold blank; rw [List.all_eq_true]
  intro c hc
  exact List.all_eq_true.1 (List.all_takeWhile (l := l) (p := isWhite)) c hc

theorem prefixOf_blank (ls : List Text) : blank (prefixOf ls) = true := by
  induction ls with
  | nil => rfl
  | cons l ls ih =>
    rw [prefixOf]
    split
    · exact ih
    · exact prefix_blank (fold_prefix ls _) (takeWhile_blank l)

theorem prefixOf_line (ls : List Text) : ∀ l ∈ ls, blank l = false → prefixOf ls <+: l := by
  induction ls with
  | nil => simp
  | cons m ls ih =>
    intro l hl hb
    rw [prefixOf]
    split
    · rename_i hm
      rcases List.mem_cons.1 hl with rfl | hl
      · rw [hm] at hb; simp at hb
      · exact ih l hl hb
    · rcases List.mem_cons.1 hl with rfl | hl
      · exact (fold_prefix ls _).trans (List.takeWhile_prefix _)
      · exact fold_line (takeWhile_blank m) hl hb

theorem mismatch_common {q l p : Text} {i : Nat} (hl : q <+: l) (hp : q <+: p) (h : mismatch l p = some i) :
    q.length ≤ i := by
  induction q generalizing l p i with
  | nil => simp
  | cons c q ih =>
    obtain ⟨l, rfl⟩ := hl
    obtain ⟨p, rfl⟩ := hp
    simp only [List.cons_append, mismatch, ne_eq, not_true_eq_false, if_false, Option.map_eq_some_iff] at h
    obtain ⟨j, hj, rfl⟩ := h
    have := ih (List.prefix_append _ _) (List.prefix_append _ _) hj
    simp; omega

theorem mismatch_short {l p : Text} (h : l <+: p) : mismatch l p = none := by
  induction l generalizing p with
  | nil => rfl
  | cons c l ih =>
    obtain ⟨p, rfl⟩ := h
    simp [mismatch, ih (List.prefix_append l p)]

theorem shorten_common {q l p : Text} (hl : q <+: l ∨ l <+: q) (hp : q <+: p) : q <+: shorten p l := by
  unfold shorten
  rcases hl with hl | hl
  · split
    · rename_i i h
      exact List.prefix_take_iff.2 ⟨hl, mismatch_common hl hp h⟩
    · exact hp
  · rw [mismatch_short (hl.trans hp)]; exact hp

theorem fold_common {q : Text} {ls : List Text} {p : Text} (hl : ∀ l ∈ ls, q <+: l ∨ l <+: q) (hp : q <+: p) :
    q <+: ls.foldl shorten p := by
  induction ls generalizing p with
  | nil => exact hp
  | cons l ls ih =>
    exact ih (fun m hm => hl m (by simp [hm])) (shorten_common (hl l (by simp)) hp)

theorem prefixOf_max (ls : List Text) {q : Text} (hq : blank q = true)
    (h : ∀ l ∈ ls, q <+: l ∨ (blank l = true ∧ l <+: q)) (he : ∃ l ∈ ls, blank l = false) : q <+: prefixOf ls := by
  induction ls with
  | nil => simp at he
  | cons l ls ih =>
    rw [prefixOf]
    split
    · rename_i hb
      refine ih (fun m hm => h m (by simp [hm])) ?_
      obtain ⟨m, hm, hmb⟩ := he
      rcases List.mem_cons.1 hm with rfl | hm
      · rw [hb] at hmb; simp at hmb
      · exact ⟨m, hm, hmb⟩
    · rename_i hb
      refine fold_common (fun m hm => (h m (by simp [hm])).imp_right And.right) ?_
      rcases h l (by simp) with hl | hl
      · obtain ⟨t, rfl⟩ := hl
        rw [List.takeWhile_append_of_pos (by simpa [blank] using hq)]
        exact List.prefix_append _ _
      · exact absurd hl.1 hb

theorem dedent_lines (ls : List Text) : Dedented ls (ls.map (dedentLine (prefixOf ls))) := by
  refine ⟨prefixOf ls, prefixOf_blank ls, prefixOf_line ls, fun q hq h he => prefixOf_max ls hq h he,
    List.map_congr_left fun l hl => ?_⟩
  unfold dedentLine
  cases hb : blank l with
  | true => simp
  | false => simp [prefixOf_line ls l hl hb]

theorem flatten_nl {ls : List Text} (h : ls ≠ []) : (ls.map (· ++ ['\n'])).flatten = joinNl ls ++ ['\n'] := by
  induction ls with
  | nil => exact absurd rfl h
  | cons l ls ih =>
    cases ls with
    | nil => simp [joinNl]
    | cons m ls => rw [List.map_cons, List.flatten_cons, ih (by simp), joinNl]; simp

theorem stripCrs_append (ls : List Text) (l : Text) : stripCrs (ls ++ [l]) = ls.map stripCr ++ [l] := by
  induction ls with
  | nil => rfl
  | cons m ls ih =>
    cases ls with
    | nil => rfl
    | cons n ls => simp only [List.cons_append, List.map_cons] at ih ⊢; rw [stripCrs, ih]

theorem lines_nil {s : Text} : lines s = [] ↔ s = [] := by
  unfold lines
  rcases ends_cases s with ⟨rfl, _⟩ | ⟨t, rfl, h, he⟩ | ⟨a, l, hl, h, he⟩
  · simp [splitNl, stripCrs, dropEmptyLast]
  · rw [h, stripCrs_append, drop_append_nil]; simp [splitNl_ne]
  · rw [h, stripCrs_append, drop_append _ hl]
    simp
    rintro rfl
    simp [splitNl] at h
    rcases a with _ | ⟨x, a⟩ <;> simp at h
    exact hl h

/-- What `dedent` does. -/
theorem dedent_eq (s : Text) : dedent s = joinNl ((lines s).map (dedentLine (prefixOf (lines s)))) ++
    if endsNl s then ['\n'] else [] := by
  unfold dedent
  by_cases hs : s = []
  · subst hs; rfl
  · have hl : lines s ≠ [] := fun h => hs (lines_nil.1 h)
    have : ((lines s).map fun l => dedentLine (prefixOf (lines s)) l ++ ['\n']) =
        ((lines s).map (dedentLine (prefixOf (lines s)))).map (· ++ ['\n']) := by simp
    rw [this, flatten_nl (by simpa using hl)]
    simp only
    have he : ∀ t : Text, endsNl (t ++ ['\n']) = true := by intro t; simp [endsNl]
    rw [he]
    cases endsNl s <;> simp

theorem lines_no {s : Text} : ∀ l ∈ lines s, '\n' ∉ l := by
  intro l hl
  have hl := drop_mem hl
  obtain ⟨a, m, hm⟩ := last_exists (splitNl_ne s)
  rw [hm, stripCrs_append] at hl
  have hn := split_no s
  rw [hm] at hn
  rcases List.mem_append.1 hl with hl | hl
  · obtain ⟨x, hx, rfl⟩ := List.mem_map.1 hl
    have := hn x (by simp [hx])
    unfold stripCr
    split
    · exact fun h => this (List.dropLast_subset _ h)
    · exact this
  · simp at hl; subst hl; exact hn l (by simp)

theorem dedentLine_suffix (p l : Text) : dedentLine p l <:+ l := by
  unfold dedentLine
  split
  · exact List.drop_suffix _ _
  · exact List.nil_suffix

theorem dedentLine_blank {ls : List Text} {l : Text} (hl : l ∈ ls) :
    blank (dedentLine (prefixOf ls) l) = true → dedentLine (prefixOf ls) l = [] := by
  intro h
  unfold dedentLine at h ⊢
  split
  · rename_i hh
    rw [if_pos hh] at h
    obtain ⟨t, rfl⟩ := hh.1
    have h2 := hh.2
    rw [blank_append, prefixOf_blank] at h2
    simp at h h2
    rw [h] at h2; simp at h2
  · rfl

end Verif.Gen.Docs
