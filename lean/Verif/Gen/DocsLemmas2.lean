import Verif.Gen.DocsLemmas

/-!
# More lemmas on documentation in generated bindings
-/

namespace Verif.Gen.Docs

open Verif.Gen.DocsSpec

/-! ## Comments -/

theorem join_infix {ls : List Text} {l : Text} (h : l ∈ ls) : l <:+: joinNl ls := by
  induction ls with
  | nil => simp at h
  | cons m ls ih =>
    cases ls with
    | nil => simp at h; subst h; exact List.infix_refl _
    | cons n ls =>
      rw [joinNl]
      rcases List.mem_cons.1 h with rfl | h
      · exact (List.prefix_append _ _).isInfix
      · obtain ⟨a, b, hab⟩ := ih h
        exact ⟨m ++ '\n' :: a, b, by rw [← hab]; simp⟩

theorem split_infix {s l : Text} (h : l ∈ splitNl s) : l <:+: s := by
  have := join_infix h; rwa [join_split] at this

theorem lines_infix {s l : Text} (h : l ∈ lines s) : l <:+: s := by
  have hl := drop_mem h
  obtain ⟨a, m, hm⟩ := last_exists (splitNl_ne s)
  rw [hm, stripCrs_append] at hl
  rcases List.mem_append.1 hl with hl | hl
  · obtain ⟨x, hx, rfl⟩ := List.mem_map.1 hl
    refine List.IsInfix.trans ?_ (split_infix (s := s) (l := x) (by rw [hm]; simp [hx]))
    unfold stripCr
    split
    · exact (List.dropLast_prefix _).isInfix
    · exact List.infix_refl _
  · simp at hl; subst hl; exact split_infix (by rw [hm]; simp)

theorem nl_apart : '\n' ≠ '*' ∧ '\n' ≠ '/' := by decide

theorem chain_nl {a b : Text} (ha : a.IsChain Apart) (hb : b.IsChain Apart) : (a ++ '\n' :: b).IsChain Apart := by
  refine ha.append (hb.cons fun y _ => apart_left nl_apart y) ?_
  intro x _ y hy
  simp at hy; subst hy
  exact apart_right nl_apart x

theorem chain_join {ls : List Text} (h : ∀ l ∈ ls, l.IsChain Apart) : (joinNl ls).IsChain Apart := by
  induction ls with
  | nil => exact .nil
  | cons l ls ih =>
    cases ls with
    | nil => exact h l (by simp)
    | cons m ls => exact chain_nl (h l (by simp)) (ih fun x hx => h x (List.mem_cons_of_mem _ hx))

theorem dedent_split_mem {s l : Text} (h : l ∈ dropEmptyLast (splitNl (dedent s))) :
    ∃ m ∈ lines s, l = dedentLine (prefixOf (lines s)) m := by
  rw [dedent_eq] at h
  by_cases hs : s = []
  · subst hs; simp [lines, splitNl, stripCrs, dropEmptyLast, joinNl, endsNl] at h
  have hne : (lines s).map (dedentLine (prefixOf (lines s))) ≠ [] := by
    simpa using fun h => hs (lines_nil.1 h)
  have hno : ∀ x ∈ (lines s).map (dedentLine (prefixOf (lines s))), '\n' ∉ x := by
    intro x hx
    obtain ⟨y, hy, rfl⟩ := List.mem_map.1 hx
    exact fun hm => lines_no y hy ((dedentLine_suffix _ y).subset hm)
  have hl : l ∈ (lines s).map (dedentLine (prefixOf (lines s))) := by
    split at h
    · rw [split_append_nl, split_join hne hno] at h
      have := drop_mem (ls := _ ++ [[]]) h
      rw [show splitNl [] = [[]] from rfl, drop_append_nil] at h
      exact h
    · rw [List.append_nil, split_join hne hno] at h
      exact drop_mem h
  obtain ⟨m, hm, rfl⟩ := List.mem_map.1 hl
  exact ⟨m, hm, rfl⟩

theorem dedent_blank {s l : Text} (h : l ∈ dropEmptyLast (splitNl (dedent s))) (hb : blank l = true) : l = [] := by
  obtain ⟨m, hm, rfl⟩ := dedent_split_mem h
  exact dedentLine_blank hm hb

theorem dedent_infix {s l : Text} (h : l ∈ dropEmptyLast (splitNl (dedent s))) : l <:+: s := by
  obtain ⟨m, hm, rfl⟩ := dedent_split_mem h
  exact (dedentLine_suffix _ m).isInfix.trans (lines_infix hm)

/-- The lines of an indented text. -/
theorem split_indent (pre s : Text) (hp : '\n' ∉ pre) : splitNl (indent pre s) =
    ((dropEmptyLast (splitNl s)).map fun l => (if blank l then trimEnd pre else pre) ++ l) ++
      if s = [] ∨ endsNl s = true then [[]] else [] := by
  have hte : '\n' ∉ trimEnd pre := by
    intro h
    unfold trimEnd at h
    rw [List.mem_reverse] at h
    exact hp (List.mem_reverse.1 ((List.dropWhile_suffix _).subset h))
  have hno : ∀ x ∈ (dropEmptyLast (splitNl s)).map fun l => (if blank l then trimEnd pre else pre) ++ l, '\n' ∉ x := by
    intro x hx
    obtain ⟨y, hy, rfl⟩ := List.mem_map.1 hx
    intro hm
    rcases List.mem_append.1 hm with hm | hm
    · split at hm
      · exact hte hm
      · exact hp hm
    · exact split_no s y (drop_mem hy) hm
  unfold indent
  rcases ends_cases s with ⟨rfl, _⟩ | ⟨t, rfl, h, he⟩ | ⟨a, l, hl, h, he⟩
  · rfl
  · rw [he, if_pos rfl, if_pos (.inr rfl), split_append_nl, split_join _ hno]
    · rfl
    · rw [h, drop_append_nil]; simpa using splitNl_ne t
  · have hs : s ≠ [] := by
      rintro rfl
      rw [show splitNl [] = [[]] from rfl] at h
      rcases a with _ | ⟨x, a⟩ <;> simp at h
      exact hl h
    rw [he, if_neg (by simp), if_neg (by simp [hs]), List.append_nil, List.append_nil, split_join _ hno]
    rw [h, drop_append _ hl]; simp

theorem trimEnd_spaces (n : Nat) : trimEnd (List.replicate n ' ') = [] := by
  unfold trimEnd
  rw [List.reverse_replicate]
  have : List.dropWhile isWhite (List.replicate n ' ') = [] := by
    have hw : isWhite ' ' = true := by decide
    induction n with
    | zero => rfl
    | succ n ih => rw [List.replicate_succ, List.dropWhile_cons, if_pos hw, ih]
  rw [this]; rfl

theorem spaces_no (n : Nat) : '\n' ∉ List.replicate n ' ' := by
  intro h; exact absurd (List.eq_of_mem_replicate h) (by decide)

/-- The documentation as lines of a comment, without the first and the last line. -/
def middle (n : Nat) (doc : Text) : List Text :=
  (dropEmptyLast (splitNl (dedent (escape doc)))).map (fun l =>
    List.replicate n ' ' ++ if l = [] then [' ', '*'] else [' ', '*', ' '] ++ l) ++
  if dedent (escape doc) = [] ∨ endsNl (dedent (escape doc)) = true then [[]] else []

theorem comment_eq (n : Nat) (doc : Text) : comment n doc =
    joinNl ([List.replicate n ' ' ++ ['/', '*', '*']] ++ middle n doc ++ [List.replicate n ' ' ++ [' ', '*', '/']]) := by
  unfold comment
  generalize hd : dedent (escape doc) = d
  have hsplit : splitNl (['/', '*', '*', '\n'] ++ indent [' ', '*', ' '] d ++ ['\n', ' ', '*', '/']) =
      [['/', '*', '*']] ++ splitNl (indent [' ', '*', ' '] d) ++ [[' ', '*', '/']] := by
    have : ['/', '*', '*', '\n'] ++ indent [' ', '*', ' '] d ++ ['\n', ' ', '*', '/'] =
        ['/', '*', '*'] ++ '\n' :: (indent [' ', '*', ' '] d ++ '\n' :: [' ', '*', '/']) := by simp
    rw [this, split_append_nl, split_append_nl, split_self (l := ['/', '*', '*']) (by decide),
      split_self (l := [' ', '*', '/']) (by decide)]
    simp
  have hend : endsNl (['/', '*', '*', '\n'] ++ indent [' ', '*', ' '] d ++ ['\n', ' ', '*', '/']) = false := by
    rw [endsNl, List.getLast?_append]; rfl
  rw [indent, hsplit, hend, drop_append _ (by simp)]
  simp only [Bool.false_eq_true, if_false, List.append_nil, List.map_append, List.map_cons, List.map_nil, trimEnd_spaces]
  have h1 : blank ['/', '*', '*'] = false := by decide
  have h2 : blank [' ', '*', '/'] = false := by decide
  rw [h1, h2]
  simp only [Bool.false_eq_true, if_false]
  congr 2
  congr 1
  rw [split_indent _ _ (by decide), middle, hd, List.map_append, List.map_map]
  congr 1
  · refine List.map_congr_left fun l hl => ?_
    have hb : blank l = true → l = [] := by
      rw [← hd] at hl; exact dedent_blank hl
    have ht : trimEnd [' ', '*', ' '] = [' ', '*'] := by decide
    simp only [Function.comp, ht]
    by_cases hl0 : l = []
    · subst hl0
      have h4 : blank ([' ', '*'] ++ []) = false := by decide
      have h5 : blank ([] : Text) = true := rfl
      rw [if_pos h5, h4, if_pos rfl]; simp
    · have h5 : blank l = false := by
        cases hh : blank l with
        | true => exact absurd (hb hh) hl0
        | false => rfl
      have h4 : blank ([' ', '*', ' '] ++ l) = false := by rw [blank_append, h5]; simp
      simp only [h5, h4, Bool.false_eq_true, if_false, if_neg hl0]
  · split <;> rfl

theorem spaces_chain (n : Nat) {s : Text} (h : s.IsChain Apart) : (List.replicate n ' ' ++ s).IsChain Apart := by
  induction n with
  | zero => exact h
  | succ n ih =>
    rw [List.replicate_succ, List.cons_append]
    exact ih.cons fun y _ => apart_left (by decide) y

theorem middle_chain (n : Nat) (doc : Text) : ∀ l ∈ middle n doc, l.IsChain Apart := by
  intro l hl
  rcases List.mem_append.1 hl with hl | hl
  · obtain ⟨m, hm, rfl⟩ := List.mem_map.1 hl
    refine spaces_chain n ?_
    split
    · refine (List.isChain_singleton _).cons fun y _ => apart_left (by decide) y
    · have hc := (escape_chain doc).infix (dedent_infix hm)
      have h1 : ('*' :: ' ' :: m).IsChain Apart :=
        (hc.cons fun y _ => apart_left (by decide) y).cons fun y hy => by
          simp at hy; subst hy; exact apart_right (by decide) _
      exact h1.cons fun y _ => apart_left (by decide) y
  · split at hl
    · simp at hl; subst hl; exact .nil
    · simp at hl

/-- A text without marks leaves the comment open. -/
theorem close_chain {s : Text} (h : s.IsChain Apart) (hl : ∀ c ∈ s.getLast?, c ≠ '*' ∧ c ≠ '/') (n : Nat) (r : Text) :
    close n (s ++ r) = close n r := by
  induction s with
  | nil => rfl
  | cons c s ih =>
    have h1 : ∀ t, (c :: s) ++ r ≠ '*' :: '/' :: t := by
      intro t ht
      cases s with
      | nil => simp at ht; exact (hl c (by simp)).1 ht.1
      | cons d s => simp at ht; exact h.rel.1 ⟨ht.1, ht.2.1⟩
    have h2 : ∀ t, (c :: s) ++ r ≠ '/' :: '*' :: t := by
      intro t ht
      cases s with
      | nil => simp at ht; exact (hl c (by simp)).2 ht.1
      | cons d s => simp at ht; exact h.rel.2 ⟨ht.1, ht.2.1⟩
    have hs : ∀ c ∈ s.getLast?, c ≠ '*' ∧ c ≠ '/' := by
      intro x hx
      cases s with
      | nil => simp at hx
      | cons d s => exact hl x (by simpa using hx)
    rw [List.cons_append, close]
    · exact ih h.tail hs
    · intro t hc ht; exact h1 t (by rw [List.cons_append, hc, ht])
    · intro t hc ht; exact h2 t (by rw [List.cons_append, hc, ht])

end Verif.Gen.Docs
