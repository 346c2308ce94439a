import Verif.Gen.DocsPython

/-!
# C84: documentation

Documentation becomes a comment or a string of its own, whatever is written in it, and loses nothing.
-/

namespace Verif.Props.Docs

open Verif.Gen.Docs Verif.Gen.DocsSpec

/-! ## Kotlin and Swift -/

/-- **Documentation is one comment**: what follows it is read as if it were not there. -/
theorem C84_comment (n : Nat) (doc : Text) :
    ∃ body, comment n doc = List.replicate n ' ' ++ '/' :: '*' :: body ∧
      ∀ rest, close 1 (body ++ rest) = some rest := by
  have hm := chain_join (middle_chain n doc)
  have hne : middle n doc ≠ [] := by
    unfold middle
    rcases ends_cases (dedent (escape doc)) with ⟨h, _⟩ | ⟨t, ht, h, he⟩ | ⟨a, l, hl, h, he⟩
    · simp [h]
    · simp [he]
    · rw [h, drop_append _ hl]; simp
  refine ⟨'*' :: '\n' :: joinNl (middle n doc) ++ '\n' :: (List.replicate n ' ' ++ [' ']) ++ ['*', '/'], ?_, ?_⟩
  · rw [comment_eq, join_append (by simp) (by simp), join_append (by simp) hne]
    simp [joinNl]
  · intro rest
    have h1 : (List.replicate n ' ' ++ [' ']).IsChain Apart := spaces_chain n (List.isChain_singleton _)
    have h2 : ('*' :: '\n' :: joinNl (middle n doc) ++ '\n' :: (List.replicate n ' ' ++ [' '])).IsChain Apart := by
      refine chain_nl ?_ h1
      refine (hm.cons fun y _ => apart_left (by decide) y).cons fun y hy => ?_
      simp at hy; subst hy; exact apart_right (by decide) _
    rw [List.append_assoc, close_chain h2 (by
      intro c hc
      have hlast : ('*' :: '\n' :: joinNl (middle n doc) ++ '\n' :: (List.replicate n ' ' ++ [' '])).getLast? = some ' ' := by
        rw [List.getLast?_append, List.getLast?_cons, List.getLast?_append]; rfl
      rw [hlast] at hc; simp at hc; subst hc; decide)]
    show close 1 ('*' :: '/' :: rest) = _
    rw [close]
    omega

/-- **The comment shows the lines of the documentation**, each after an asterisk. -/
theorem C84_comment_lines (n : Nat) (doc : Text) : comment n doc =
    joinNl ([List.replicate n ' ' ++ "/**".toList] ++
      (dropEmptyLast (splitNl (dedent (escape doc)))).map (fun l =>
        List.replicate n ' ' ++ if l = [] then " *".toList else " * ".toList ++ l) ++
      (if dedent (escape doc) = [] ∨ endsNl (dedent (escape doc)) = true then [[]] else []) ++
      [List.replicate n ' ' ++ " */".toList]) := by
  rw [comment_eq, middle]; simp

/-- **Taking apart the marks of comments changes nothing else**: backslashes are added, and none if there are
no marks. -/
theorem C84_escape (s : Text) : (escape s).filter (· != '\\') = s.filter (· != '\\') ∧
    (s.IsChain Apart → escape s = s) := by
  constructor
  · rw [escape_eq, ins_filter _ _ _ (by decide), ins_filter _ _ _ (by decide)]
  · intro h
    have hins : ∀ a b : Char, s.IsChain (fun x y => ¬(x = a ∧ y = b)) → ins a b s = s := by
      intro a b h
      induction s with
      | nil => rfl
      | cons x s ih =>
        rw [ins, if_neg, ih _ h.tail]
        · exact (‹(x :: s).IsChain Apart›).tail
        · rintro ⟨rfl, hb⟩
          cases s with
          | nil => simp at hb
          | cons y s => simp at hb; exact h.rel ⟨rfl, hb⟩
    rw [escape_eq, hins '*' '/' (h.imp fun _ _ hh => hh.1), hins '/' '*' (h.imp fun _ _ hh => hh.2)]

/-- **Indentation is taken away from all lines alike.** -/
theorem C84_dedent (s : Text) : ∃ ls, Dedented (lines s) ls ∧
    dedent s = joinNl ls ++ if endsNl s then ['\n'] else [] :=
  ⟨_, dedent_lines (lines s), dedent_eq s⟩

theorem visible_append (a b : Text) : visible (a ++ b) = visible a ++ visible b := by simp [visible]

theorem visible_join (ls : List Text) : visible (joinNl ls) = (ls.map visible).flatten := by
  have h0 : visible ['\n'] = [] := by decide
  induction ls with
  | nil => rfl
  | cons l ls ih =>
    cases ls with
    | nil => simp [joinNl]
    | cons m ls =>
      rw [joinNl, visible_append, show '\n' :: joinNl (m :: ls) = ['\n'] ++ joinNl (m :: ls) from rfl,
        visible_append, h0, ih]
      rfl

theorem visible_blank {s : Text} (h : blank s = true) : visible s = [] := by
  unfold visible blank at *
  rw [List.all_eq_true] at h
  rw [List.filter_eq_nil_iff]
  intro c hc
  simp [h c hc]

theorem visible_nl (b : Bool) : visible (if b then ['\n'] else []) = [] := by cases b <;> decide

theorem visible_dedentLine {ls : List Text} {l : Text} (hl : l ∈ ls) : visible (dedentLine (prefixOf ls) l) = visible l := by
  unfold dedentLine
  cases hb : blank l with
  | true => rw [if_neg (by simp), visible_blank hb]; rfl
  | false =>
    obtain ⟨t, ht⟩ := prefixOf_line ls l hl hb
    rw [if_pos ⟨⟨t, ht⟩, rfl⟩]
    conv => rhs; rw [← ht, visible_append, visible_blank (prefixOf_blank ls)]
    conv => lhs; rw [← ht]
    simp

theorem visible_stripCr (l : Text) : visible (stripCr l) = visible l := by
  unfold stripCr
  split
  · rename_i h
    obtain ⟨a, rfl⟩ : ∃ a, l = a ++ ['\r'] := by
      obtain ⟨a, c, rfl⟩ := last_exists (ls := l) (by rintro rfl; simp at h)
      simp at h; exact ⟨a, by rw [h]⟩
    have : visible ['\r'] = [] := by decide
    rw [visible_append, this]; simp
  · rfl

theorem visible_lines (s : Text) : ((lines s).map visible).flatten = visible s := by
  have hs := visible_join (splitNl s)
  rw [join_split] at hs
  rw [hs]
  unfold lines
  obtain ⟨a, l, h⟩ := last_exists (splitNl_ne s)
  rw [h, stripCrs_append]
  by_cases hl : l = []
  · subst hl
    rw [drop_append_nil]
    simp [visible_stripCr, Function.comp_def]
    rfl
  · rw [drop_append _ hl]
    simp [visible_stripCr, Function.comp_def]

theorem visible_dedent (s : Text) : visible (dedent s) = visible s := by
  rw [dedent_eq, visible_append, visible_nl, visible_join, ← visible_lines s, List.map_map, List.append_nil]
  congr 1
  exact List.map_congr_left fun l hl => visible_dedentLine hl

/-- **Nothing is lost**: every letter, digit and sign is in the comment, in order. -/
theorem C84_comment_text (n : Nat) (doc : Text) : visible (comment n doc) = '/' :: visible doc ++ ['/'] := by
  have hsp : ∀ t : Text, visible (List.replicate n ' ' ++ t) = visible t := by
    intro t; rw [visible_append, visible_blank (by simp [blank]; exact .inr (by decide))]; rfl
  have he : visible (escape doc) = visible doc := by
    unfold visible; rw [escape_eq, ins_filter _ _ _ (by decide), ins_filter _ _ _ (by decide)]
  have hmid : ((middle n doc).map visible).flatten = visible doc := by
    rw [← he, ← visible_dedent, ← join_drop (dedent (escape doc)), visible_append, visible_nl, List.append_nil,
      visible_join, middle]
    generalize dropEmptyLast (splitNl (dedent (escape doc))) = ls
    rw [List.map_append, List.flatten_append]
    have h2 : (List.map visible (if dedent (escape doc) = [] ∨ endsNl (dedent (escape doc)) = true then [[]] else [])).flatten = [] := by
      split <;> rfl
    rw [h2, List.append_nil, List.map_map]
    congr 1
    refine List.map_congr_left fun l _ => ?_
    simp only [Function.comp, hsp]
    split
    · rename_i h; rw [h]; decide
    · rw [visible_append, show visible [' ', '*', ' '] = [] by decide]; rfl
  rw [comment_eq, visible_join, List.map_append, List.map_append, List.flatten_append, List.flatten_append, hmid]
  simp only [List.map_cons, List.map_nil, hsp, List.flatten_cons, List.flatten_nil, List.append_nil]
  rw [show visible ['/', '*', '*'] = ['/'] by decide, show visible [' ', '*', '/'] = ['/'] by decide]
  simp

-- a text that tries to end the comment and to open another one
example : comment 4 "Ends */ here /* and\n   there".toList =
    "    /**\n     * Ends *\\/ here /\\* and\n     *    there\n     */".toList := by decide +kernel

/-! ## Python -/

/-- The string that documentation becomes, between its quotes. -/
def pyBody (n : Nat) (doc : Text) : Text :=
  '\n' :: indent (List.replicate n ' ') (replace quotes quoted (dedent doc)) ++ ['\n']

theorem pyDoc_eq (n : Nat) (doc : Text) :
    pyDoc n (some doc) = quotes ++ (pyBody n doc ++ (quotes ++ '\n' :: List.replicate n ' ')) := by
  simp [pyDoc, pyBody, quoted, quotes]

/-- **Documentation is one string**: what follows it is read as if it were not there. -/
theorem C84_python_end (n : Nat) (doc : Text) :
    ∃ body, pyDoc n (some doc) = quotes ++ (body ++ (quotes ++ '\n' :: List.replicate n ' ')) ∧
      ∀ rest, pyEnd (body ++ (quotes ++ rest)) = some rest := by
  refine ⟨pyBody n doc, pyDoc_eq n doc, fun rest => ?_⟩
  have hf : fine (.run 0) (pyBody n doc) = true := by
    rw [pyBody, List.cons_append, fine]
    simp only [show ('\n' : Char) ≠ '\\' by decide, show ('\n' : Char) ≠ '"' by decide, if_false]
    rw [fine_nl, fine_indent n (fine_text _)]; rfl
  have := pyEnd_fine (pyBody n doc).length (pyBody n doc) 0 (Nat.le_refl _) (by omega) hf (by
    rw [pyBody, List.getLast?_append]; rfl) rest
  simpa using this

/-- **Documentation without backslashes is the value of the string**, line by line. -/
theorem C84_python_text_partial (n : Nat) (doc : Text) (h : '\\' ∉ doc) :
    ∃ body, pyDoc n (some doc) = quotes ++ (body ++ (quotes ++ '\n' :: List.replicate n ' ')) ∧
      pyValue body = some ('\n' :: indent (List.replicate n ' ') (dedent doc) ++ ['\n']) := by
  refine ⟨pyBody n doc, pyDoc_eq n doc, ?_⟩
  have hd : '\\' ∉ dedent doc := fun hh => h (dedent_mem hh (by decide))
  exact (Written.append (.char (by decide) (written_indent n hd)) (.char (by decide) .nil)).value

example : pyDoc 4 (some "Say \"\"\"hello\"\"\"\nto all".toList) =
    "\"\"\"\n    Say \\\"\\\"\\\"hello\\\"\\\"\\\"\n    to all\n\"\"\"\n    ".toList := by decide +kernel

/-- Python refuses a module whose documentation says `C:\users`, and shows another text for `\n`. -/
theorem C84_python_backslash_broken :
    (∃ body, pyDoc 0 (some "C:\\users".toList) = quotes ++ (body ++ (quotes ++ ['\n'])) ∧ pyValue body = none) ∧
    (∃ body, pyDoc 0 (some "a\\nb".toList) = quotes ++ (body ++ (quotes ++ ['\n'])) ∧
      pyValue body = some "\na\nb\n".toList) := by
  refine ⟨⟨pyBody 0 "C:\\users".toList, pyDoc_eq _ _, by decide +kernel⟩,
    ⟨pyBody 0 "a\\nb".toList, pyDoc_eq _ _, by decide +kernel⟩⟩

/-- No documentation, no string. -/
theorem C84_python_none (n : Nat) : pyDoc n none = [] := rfl

/-! ## Where documentation comes from -/

/-- **Doc comments of UDL files keep the shape of their text.** -/
theorem C84_udl (ls : List Text) (h : ∀ l ∈ ls, '\n' ∉ l ∧ '\r' ∉ l) (hl : ls.getLast? ≠ some []) :
    ∃ ls', Dedented ls ls' ∧ udl ls = joinNl ls' := by
  by_cases hne : ls = []
  · subst hne; exact ⟨[], ⟨[], rfl, by simp, by simp, rfl⟩, rfl⟩
  have hsplit := split_join hne fun l hm => (h l hm).1
  obtain ⟨a, l, rfl⟩ := last_exists hne
  have hl : l ≠ [] := by simpa using hl
  have hlines : lines (joinNl (a ++ [l])) = a ++ [l] := by
    unfold lines
    rw [hsplit, stripCrs_append, drop_append _ hl]
    congr 1
    conv => rhs; rw [← List.map_id a]
    refine List.map_congr_left fun x hx => ?_
    unfold stripCr
    rw [if_neg]; rfl
    intro hh
    exact (h x (by simp [hx])).2 (List.mem_of_getLast? hh)
  have hend : endsNl (joinNl (a ++ [l])) = false := by
    cases he : endsNl (joinNl (a ++ [l])) with
    | false => rfl
    | true =>
      obtain ⟨b, _, hb⟩ := (ends_iff _).1 he
      rw [hsplit] at hb
      have := congrArg List.getLast? hb
      simp at this
      exact absurd this hl
  refine ⟨_, dedent_lines _, ?_⟩
  rw [udl, dedent_eq, hend, hlines]; simp only [Bool.false_eq_true, if_false, List.append_nil]

example : udl [" One".toList, "   two".toList, [], " three".toList] = "One\n  two\n\nthree".toList := by decide +kernel

/-- **Doc comments of Rust keep their lines**, without the white space around them. -/
theorem C84_rust_partial (attrs : List Text) (h : ∀ l ∈ attrs, '\n' ∉ l) (hne : attrs ≠ []) :
    splitNl (extract attrs) = attrs.map trim := by
  refine split_join (by simpa using hne) ?_
  intro l hl
  obtain ⟨m, hm, rfl⟩ := List.mem_map.1 hl
  intro hh
  unfold trim at hh
  rw [List.mem_reverse] at hh
  have := List.mem_reverse.1 ((List.dropWhile_suffix _).subset hh)
  exact h m hm ((List.dropWhile_suffix _).subset this)

example : extract [" One".toList, " two ".toList] = "One\ntwo".toList := by decide +kernel

/-- Code in doc comments of Rust loses its indentation, which the same comment in a UDL file keeps. -/
theorem C84_rust_indent_broken :
    extract [" if x:".toList, "     y()".toList] = "if x:\ny()".toList ∧
    udl [" if x:".toList, "     y()".toList] = "if x:\n    y()".toList := by decide +kernel

end Verif.Props.Docs
