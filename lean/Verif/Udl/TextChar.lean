import Verif.Udl.TextComm
/-
The basic parsers for text read the tokens that the text spells.
-/
namespace Verif.Udl.TextChar
open Verif.Udl Verif.Udl.File Verif.Udl.Parse Verif.Udl.TextSpec Verif.Udl.TextTok Verif.Udl.TextComm

variable {α : Type}

theorem isSpace_iff (c : Char) : isSpace c = true ↔ space c := by
  simp [isSpace, space, or_assoc]

theorem isWordChar_iff (c : Char) : isWordChar c = true ↔ wordChar c := by
  simp [isWordChar, isAlnum, wordChar, or_assoc]

theorem afterNewline_append {l s : Text} (h : '\n' ∉ l) : afterNewline (l ++ '\n' :: s) = some s := by
  induction l with
  | nil => simp [afterNewline]
  | cons c l ih =>
    simp only [List.mem_cons, not_or] at h
    rw [List.cons_append, afterNewline, if_neg (fun e => h.1 e.symm), ih h.2]

theorem afterBlock_append {b s : Text} (h : ¬ ∃ u v, b ++ ['*'] = u ++ '*' :: '/' :: v) :
    afterBlock (b ++ '*' :: '/' :: s) = some s := by
  induction b with
  | nil => simp [afterBlock]
  | cons c b ih =>
    have h' : ¬ ∃ u v, b ++ ['*'] = u ++ '*' :: '/' :: v := by
      rintro ⟨u, v, e⟩
      exact h ⟨c :: u, v, by rw [List.cons_append, e]; rfl⟩
    rw [List.cons_append, afterBlock, if_neg, ih h']
    rintro ⟨rfl, e⟩
    match b, e with
    | [], e => simp at e
    | d :: b, e =>
      simp only [List.cons_append, List.head?_cons, Option.some.injEq] at e
      subst e
      exact h ⟨[], b ++ ['*'], rfl⟩

theorem trivia_dropSpace {s : Text} (h : Trivia s) : Trivia (s.dropWhile isSpace) := by
  induction h with
  | nil => exact .nil
  | space hc _ ih => rw [List.dropWhile_cons_of_pos ((isSpace_iff _).2 hc)]; exact ih
  | line h1 h2 h3 _ =>
    rw [List.cons_append, List.dropWhile_cons_of_neg (by decide)]
    exact .line h1 h2 h3
  | block h1 h2 _ =>
    rw [List.cons_append, List.dropWhile_cons_of_neg (by decide)]
    exact .block h1 h2

theorem dropSpace_append {s t : Text} (h : ∀ c, t.head? = some c → isSpace c = false) :
    (s ++ t).dropWhile isSpace = s.dropWhile isSpace ++ t := by
  induction s with
  | nil =>
    match t, h with
    | [], _ => rfl
    | c :: t, h => rw [List.nil_append, List.dropWhile_cons_of_neg (by simp [h c rfl])]; rfl
  | cons c s ih =>
    by_cases hc : isSpace c = true
    · rw [List.cons_append, List.dropWhile_cons_of_pos hc, List.dropWhile_cons_of_pos hc, ih]
    · rw [List.cons_append, List.dropWhile_cons_of_neg hc, List.dropWhile_cons_of_neg hc]; rfl

theorem dropWhile_length (f : Char → Bool) (s : Text) : (s.dropWhile f).length ≤ s.length := by
  induction s with
  | nil => exact Nat.le_refl _
  | cons c s ih =>
    by_cases hc : f c = true
    · rw [List.dropWhile_cons_of_pos hc, List.length_cons]; omega
    · rw [List.dropWhile_cons_of_neg hc]; exact Nat.le_refl _

theorem skip_other {c : Char} {s : Text} (h : c ≠ '/') :
    skip (c :: s) = if isSpace c then some (s.dropWhile isSpace) else none := by
  unfold skip
  split
  · rename_i e; cases e
  · rename_i e
    cases e
    rw [if_neg h]

theorem skip_line (l : Text) :
    skip ('/' :: '/' :: l) = if l.head? = some '/' then none else afterNewline l := by
  simp [skip]

theorem skip_block (l : Text) : skip ('/' :: '*' :: l) = afterBlock l := by
  simp [skip]

theorem skip_space {t : Text} (h : skip t = none) : ∀ c, t.head? = some c → isSpace c = false := by
  intro c e
  match t, e with
  | d :: t, e =>
    simp only [List.head?_cons, Option.some.injEq] at e
    subst e
    by_cases hd : d = '/'
    · subst hd; decide
    · rw [skip_other hd] at h
      by_cases hs : isSpace d = true
      · rw [if_pos hs] at h; cases h
      · simpa using hs

/-- One round of `sp` on white space and comments. -/
theorem skip_trivia {gap t : Text} (h : Trivia gap) (ht : skip t = none) :
    gap = [] ∨ ∃ gap', Trivia gap' ∧ gap'.length < gap.length ∧ skip (gap ++ t) = some (gap' ++ t) := by
  cases h with
  | nil => exact .inl rfl
  | @space c s hc hs =>
    right
    refine ⟨s.dropWhile isSpace, trivia_dropSpace hs, ?_, ?_⟩
    · have := dropWhile_length isSpace s
      rw [List.length_cons]; omega
    · have hc' := (isSpace_iff c).2 hc
      have hne : c ≠ '/' := by rintro rfl; revert hc'; decide
      rw [List.cons_append, skip_other hne, if_pos hc', dropSpace_append (skip_space ht)]
  | @line l s h1 h2 h3 =>
    right
    refine ⟨s, h3, by simp [List.length_append]; omega, ?_⟩
    have e : '/' :: '/' :: l ++ '\n' :: s ++ t = '/' :: '/' :: (l ++ '\n' :: (s ++ t)) := by simp
    rw [e, skip_line, if_neg, afterNewline_append h1]
    match l, h2 with
    | [], _ => simp
    | d :: l, h2 => simpa using h2
  | @block b s h1 h2 =>
    right
    refine ⟨s, h2, by simp [List.length_append]; omega, ?_⟩
    have e : '/' :: '*' :: b ++ '*' :: '/' :: s ++ t = '/' :: '*' :: (b ++ '*' :: '/' :: (s ++ t)) := by simp
    rw [e, skip_block, afterBlock_append h1]

theorem spN_trivia {t : Text} (ht : skip t = none) : ∀ (n : Nat) (gap : Text), Trivia gap → gap.length ≤ n →
    spN n (gap ++ t) = t := by
  intro n
  induction n with
  | zero =>
    intro gap h hn
    match gap, hn with
    | [], _ => rfl
  | succ n ih =>
    intro gap h hn
    rcases skip_trivia h ht with rfl | ⟨gap', h', hl, e⟩
    · simp [spN, ht]
    · rw [spN, e]
      exact ih gap' h' (by omega)

theorem sp_trivia {gap t : Text} (h : Trivia gap) (ht : skip t = none) : sp (gap ++ t) = t :=
  spN_trivia ht _ _ h (by rw [List.length_append]; omega)

/-! ### Beginnings of tokens -/

/-- Characters that tokens begin with. -/
def first : Tok → Char → Prop
  | .word b _, c => (b = true ∧ c = '_') ∨ (b = false ∧ c.isAlpha = true)
  | .punct s, c => s.toList.head? = some c
  | .str _, c => c = '"'
  | .int _, c => c = '-' ∨ c.isDigit = true
  | .float _, c => c = '-' ∨ c.isDigit = true ∨ c = '.'
  | .doc _, c => c = '/'

theorem written_first {t : Tok} {body : Text} (h : Written t body) : ∃ c cs, body = c :: cs ∧ first t c := by
  cases h with
  | word b hc _ => cases b with
    | false => exact ⟨_, _, rfl, .inr ⟨rfl, hc⟩⟩
    | true => exact ⟨_, _, rfl, .inl ⟨rfl, rfl⟩⟩
  | @punct s hs =>
    have : ∀ s ∈ symbols, s.toList ≠ [] := by decide
    match e : s.toList, this s hs with
    | c :: cs, _ => exact ⟨c, cs, rfl, by simp [first, e]⟩
  | str _ => exact ⟨_, _, rfl, rfl⟩
  | int h =>
    have key : ∀ m c (cs : Text), Minus m → c.isDigit = true → ∃ d ds, m ++ c :: cs = d :: ds ∧ first (.int (m ++ c :: cs)) d := by
      intro m c cs hm hc
      rcases hm with rfl | rfl
      · exact ⟨_, _, rfl, .inr hc⟩
      · exact ⟨_, _, rfl, .inl rfl⟩
    cases h with
    | dec hm hc _ _ => exact key _ _ _ hm hc
    | hex hm _ _ _ => exact key _ _ _ hm (by decide)
    | oct hm _ => exact key _ _ _ hm (by decide)
  | float h =>
    cases h with
    | @point m a b e hm ha hb hne he =>
      rcases hm with rfl | rfl
      · match a, ha with
        | [], _ => exact ⟨_, _, rfl, .inr (.inr rfl)⟩
        | c :: cs, ha => exact ⟨_, _, rfl, .inr (.inl (ha c (List.mem_cons_self ..)))⟩
      · exact ⟨_, _, rfl, .inl rfl⟩
    | @exp m a e hm ha hne he =>
      rcases hm with rfl | rfl
      · match a, ha, hne with
        | c :: cs, ha, _ => exact ⟨_, _, rfl, .inr (.inl (ha c (List.mem_cons_self ..)))⟩
      · exact ⟨_, _, rfl, .inl rfl⟩
  | doc h =>
    cases h with
    | one => exact ⟨_, _, rfl, rfl⟩
    | cons => exact ⟨_, _, rfl, rfl⟩

/-- The characters that symbols begin with. -/
def symChars : List Char := ['(', ')', '[', ']', '{', '}', ',', '.', ':', ';', '<', '=', '>', '?']

theorem sym_first {s : String} (h : s ∈ symbols) {c : Char} (hc : s.toList.head? = some c) : c ∈ symChars := by
  have key : ∀ s ∈ symbols, ∀ c, s.toList.head? = some c → c ∈ symChars := by
    intro s hs
    simp only [symbols, List.mem_cons, List.not_mem_nil, or_false] at hs
    rcases hs with rfl | rfl | rfl | rfl | rfl | rfl | rfl | rfl | rfl | rfl | rfl | rfl | rfl | rfl <;>
    · intro c hc
      have : c ∈ symChars ↔ c ∈ symChars := Iff.rfl
      revert hc
      simp only [String.reduceToList, List.head?_cons, Option.some.injEq]
      rintro rfl
      decide
  exact key s h c hc

theorem alpha_ne {c d : Char} (h : c.isAlpha = true) (hd : d.isAlpha = false) : c ≠ d := by
  rintro rfl; rw [h] at hd; cases hd

theorem digit_ne {c d : Char} (h : c.isDigit = true) (hd : d.isDigit = false) : c ≠ d := by
  rintro rfl; rw [h] at hd; cases hd

theorem symChars_facts {c : Char} (h : c ∈ symChars) :
    isSpace c = false ∧ c ≠ '/' ∧ c ≠ '_' ∧ c ≠ '"' ∧ c ≠ '-' ∧ isAlnum c = false := by
  revert c
  decide

theorem alpha_space {c : Char} (h : c.isAlpha = true) : isSpace c = false := by
  have h1 := alpha_ne h (d := ' ') (by decide)
  have h2 := alpha_ne h (d := '\t') (by decide)
  have h3 := alpha_ne h (d := '\r') (by decide)
  have h4 := alpha_ne h (d := '\n') (by decide)
  simp [isSpace, h1, h2, h3, h4]

theorem digit_space {c : Char} (h : c.isDigit = true) : isSpace c = false := by
  have h1 := digit_ne h (d := ' ') (by decide)
  have h2 := digit_ne h (d := '\t') (by decide)
  have h3 := digit_ne h (d := '\r') (by decide)
  have h4 := digit_ne h (d := '\n') (by decide)
  simp [isSpace, h1, h2, h3, h4]

theorem digit_alpha {c : Char} (h : c.isDigit = true) : c.isAlpha = false := by
  simp only [Char.isDigit, Char.isAlpha, Char.isUpper, Char.isLower, Bool.and_eq_true, decide_eq_true_eq,
    Bool.or_eq_false_iff, Bool.and_eq_false_iff, decide_eq_false_iff_not, ge_iff_le, UInt32.le_iff_toNat_le] at h ⊢
  have e : '0'.val.toNat = 48 ∧ '9'.val.toNat = 57 ∧ 'A'.val.toNat = 65 ∧ 'a'.val.toNat = 97 :=
    by decide
  rw [e.1, e.2.1] at h
  rw [e.2.2.1, e.2.2.2]
  omega

/-- The first character of a token other than documentation is neither a slash nor white space. -/
theorem first_facts {t : Tok} {body : Text} (hw : Written t body) {c : Char} (h : first t c) (hd : ¬ isDoc t) :
    c ≠ '/' ∧ isSpace c = false := by
  cases hw with
  | word b _ _ =>
    rcases h with ⟨_, rfl⟩ | ⟨_, h⟩
    · decide
    · exact ⟨alpha_ne h (by decide), alpha_space h⟩
  | punct hs =>
    have := symChars_facts (sym_first hs h)
    exact ⟨this.2.1, this.1⟩
  | str _ => cases h; decide
  | int _ =>
    rcases h with rfl | h
    · decide
    · exact ⟨digit_ne h (by decide), digit_space h⟩
  | float _ =>
    rcases h with rfl | h | rfl
    · decide
    · exact ⟨digit_ne h (by decide), digit_space h⟩
    · decide
  | doc _ => exact absurd trivial hd

theorem doc_slash {ls : List Text} {s : Text} (h : DocText ls s) : ∃ r, s = '/' :: '/' :: '/' :: r := by
  cases h with
  | one => exact ⟨_, rfl⟩
  | cons => exact ⟨_, rfl⟩

theorem skip_none {c : Char} {s : Text} (h : c ≠ '/' ∧ isSpace c = false) : skip (c :: s) = none := by
  rw [skip_other h.1, if_neg (by simp [h.2])]

theorem skip_spells {ts : List Tok} {s : Text} (h : Spells ts s) : skip s = none := by
  cases h with
  | nil => rfl
  | @cons t ts body gap s hw hg hs hc hl =>
    rw [List.append_assoc]
    by_cases ht : isDoc t
    · cases hw with
      | doc h =>
        obtain ⟨r, rfl⟩ := doc_slash h
        rfl
      | _ => exact absurd ht (fun h => h)
    · obtain ⟨c, cs, rfl, hf⟩ := written_first hw
      exact skip_none (first_facts hw hf ht)

/-! ### Parsers with `ws` -/

/-- What a parser for one token has to do. -/
def OnTok (q : Text → Option (α × Text)) (g : Parser (List Tok) α) : Prop :=
  ∀ t ts body tail, Written t body → (∀ c, tail.head? = some c → ¬ Glues t c) →
    g (t :: ts) = .unknown ∨ (g (t :: ts) = .fail ∧ q (body ++ tail) = none) ∨
    (∃ a, g (t :: ts) = .ok a ts ∧ q (body ++ tail) = some (a, tail))

theorem comm_ws {q : Text → Option (α × Text)} {g : Parser (List Tok) α} (h0 : q [] = none) (h0' : g [] = .fail)
    (h : OnTok q g) : Comm (ws q) g := by
  rintro ts s ⟨gap, core, rfl, hg, hs, hnil, _⟩
  have hsk := skip_spells hs
  unfold ws
  rw [sp_trivia hg hsk]
  cases hs with
  | nil => rw [h0', h0]
  | @cons t ts body gap' s hw hg' hs' hc hl =>
    rw [List.append_assoc]
    rcases h t ts body (gap' ++ s) hw hc with e | ⟨e, e'⟩ | ⟨a, e, e'⟩
    · rw [e]; trivial
    · rw [e, e']
    · rw [e, e']
      refine ⟨s, ?_, [], s, rfl, .nil, hs', fun _ => rfl, fun _ c hc => absurd hc (by simp)⟩
      dsimp only
      rw [sp_trivia hg' (skip_spells hs')]

theorem tag_self (x s : Text) : tag x (x ++ s) = some s := by
  induction x with
  | nil => rfl
  | cons c x ih => rw [List.cons_append, tag, if_pos rfl, ih]

theorem tag_some {x s r : Text} (h : tag x s = some r) : s = x ++ r := by
  induction x generalizing s with
  | nil => simpa [tag] using h
  | cons c x ih =>
    match s, h with
    | [], h => cases h
    | d :: s, h =>
      rw [tag] at h
      by_cases e : c = d
      · rw [if_pos e] at h
        rw [e, ih h, List.cons_append]
      · rw [if_neg e] at h; cases h

theorem tag_head {c d : Char} {x s : Text} (h : c ≠ d) : tag (c :: x) (d :: s) = none := by
  rw [tag, if_neg h]

theorem c_punct {x : String} (hx : x ∈ symbols) : Comm (text.punct x) (tok.punct x) := by
  have hne : ∀ s ∈ symbols, s.toList ≠ [] := by decide
  obtain ⟨c, cs, hcs⟩ : ∃ c cs, x.toList = c :: cs := by
    match e : x.toList, hne x hx with
    | c :: cs, _ => exact ⟨c, cs, rfl⟩
  have hc := symChars_facts (sym_first hx (by rw [hcs]; rfl))
  refine comm_ws (q := fun s => (tag x.toList s).map fun r => ((), r)) (by rw [hcs]; rfl) rfl ?_
  intro t ts body tail hw hg
  by_cases ht : t = .punct x
  · subst ht
    cases hw with
    | punct hs => exact .inr (.inr ⟨(), sym_ok _ _, by
      show (tag x.toList (x.toList ++ tail)).map _ = _
      rw [tag_self]; rfl⟩)
  · refine .inr (.inl ⟨sym_fail (by simpa using ht), ?_⟩)
    have key : tag x.toList (body ++ tail) = none := by
      obtain ⟨d, ds, hb, hf⟩ := written_first hw
      rw [hcs, hb, List.cons_append]
      cases hw with
      | word b _ _ =>
        rcases hf with ⟨_, rfl⟩ | ⟨_, h⟩
        · exact tag_head hc.2.2.1
        · exact tag_head fun e => by
            have := hc.2.2.2.2.2
            rw [e, isAlnum, h] at this; cases this
      | @punct y hy =>
        apply tag_head
        rintro rfl
        have h2 : ∀ x ∈ symbols, ∀ y ∈ symbols, x.toList.head? = y.toList.head? → x = y := by decide
        exact ht (by rw [h2 y hy x hx (by rw [hcs]; exact hf)])
      | str _ => cases hf; exact tag_head hc.2.2.2.1
      | int _ =>
        rcases hf with rfl | h
        · exact tag_head hc.2.2.2.2.1
        · exact tag_head fun e => by
            have := hc.2.2.2.2.2
            rw [e, isAlnum, h] at this; simp at this
      | doc _ => cases hf; exact tag_head hc.2.1
      | float hft =>
        rcases hf with rfl | h | rfl
        · exact tag_head hc.2.2.2.2.1
        · exact tag_head fun e => by
            have := hc.2.2.2.2.2
            rw [e, isAlnum, h] at this; simp at this
        · by_cases e : c = '.'
          · subst e
            have hcs' : cs = ['.', '.'] := by
              have h2 : ∀ x ∈ symbols, x.toList.head? = some '.' → x.toList = ['.', '.', '.'] := by decide
              have := h2 x hx (by rw [hcs]; rfl)
              rw [hcs] at this
              simpa using this
            subst hcs'
            rw [tag, if_pos rfl]
            -- a number that begins with a point goes on with a digit
            have hd2 : ∃ e es, ds = e :: es ∧ e.isDigit = true := by
              replace hb := hb.symm
              generalize hgen : ('.' :: ds) = w at hb
              subst hb
              cases hft with
              | @point m a b e hm ha hb hne' he =>
                rcases hm with rfl | rfl
                · match a, ha with
                  | [], _ =>
                    simp only [List.nil_append, List.cons_append, List.cons.injEq, true_and] at hgen
                    match b, hb, hne' with
                    | [], _, h => exact absurd rfl (h.elim (fun h => h) (fun h => h))
                    | k :: ks, hb, _ =>
                      exact ⟨k, ks ++ e, hgen, hb k (List.mem_cons_self ..)⟩
                  | k :: ks, ha =>
                    simp only [List.nil_append, List.cons_append, List.cons.injEq] at hgen
                    have := ha k (List.mem_cons_self ..)
                    rw [← hgen.1] at this
                    exact absurd this (by decide)
                · simp at hgen
              | @exp m a e hm ha hne' he =>
                rcases hm with rfl | rfl
                · match a, ha, hne' with
                  | k :: ks, ha, _ =>
                    simp only [List.nil_append, List.cons_append, List.cons.injEq] at hgen
                    have := ha k (List.mem_cons_self ..)
                    rw [← hgen.1] at this
                    exact absurd this (by decide)
                · simp at hgen
            obtain ⟨e, es, rfl, he⟩ := hd2
            exact tag_head fun h => by rw [← h] at he; revert he; decide
          · exact tag_head e
    dsimp only
    rw [key]; rfl

/-! ### Keywords and names -/

theorem takeWhile_append {f : Char → Bool} {n tail : Text} (hn : ∀ c ∈ n, f c = true)
    (ht : ∀ c, tail.head? = some c → f c = false) :
    (n ++ tail).takeWhile f = n ∧ (n ++ tail).dropWhile f = tail := by
  induction n with
  | nil =>
    match tail, ht with
    | [], _ => exact ⟨rfl, rfl⟩
    | c :: tail, ht =>
      have := ht c rfl
      simp [this]
  | cons c n ih =>
    have hc := hn c (List.mem_cons_self ..)
    have := ih fun d hd => hn d (List.mem_cons_of_mem _ hd)
    rw [List.cons_append, List.takeWhile_cons_of_pos hc, List.dropWhile_cons_of_pos hc, this.1, this.2]
    exact ⟨rfl, rfl⟩

/-- What keywords look like, except for `-Infinity`. -/
theorem keyword_chars : ∀ k ∈ keywords, k = "-Infinity" ∨
    (∀ c ∈ k.toList, isWordChar c = true) ∧ ∃ c cs, k.toList = c :: cs ∧ c.isAlpha = true := by
  intro k hk
  by_cases e : k = "-Infinity"
  · exact .inl e
  · right
    have h1 : ∀ k ∈ keywords, k ≠ "-Infinity" → k.toList.all isWordChar = true ∧
        (k.toList.head?.map Char.isAlpha) = some true := by decide
    have := h1 k hk e
    refine ⟨by simpa using this.1, ?_⟩
    match hl : k.toList, this.2 with
    | c :: cs, h => exact ⟨c, cs, rfl, by simpa using h⟩

theorem word_chars {c : Char} {cs : Text} (h : c.isAlpha = true) (h' : ∀ d ∈ cs, wordChar d) :
    ∀ d ∈ c :: cs, isWordChar d = true := by
  intro d hd
  rcases List.mem_cons.1 hd with rfl | hd
  · exact (isWordChar_iff _).2 (.inl h)
  · exact (isWordChar_iff _).2 (h' d hd)

theorem c_kw {k : String} (hk : k ∈ keywords) : Comm (text.kw k) (tok.kw k) := by
  have hne : k.toList ≠ [] := by
    have : ∀ k ∈ keywords, k.toList ≠ [] := by decide
    exact this k hk
  refine comm_ws (by
    match e : k.toList, hne with
    | c :: cs, _ => simp [identTag, tag]) rfl ?_
  intro t ts body tail hw hg
  rcases keyword_chars k hk with rfl | ⟨hkc, c, cs, hcs, hc⟩
  · -- `-Infinity`
    refine .inr (.inl ⟨key_fail ?_, ?_⟩)
    · intro e
      simp only [List.head?_cons, Option.some.injEq] at e
      subst e
      generalize hgen : Tok.word false "-Infinity" = w at hw
      cases hw with
      | @word b c cs h1 h2 =>
        simp only [Tok.word.injEq] at hgen
        have : (String.ofList (c :: cs)).toList = "-Infinity".toList := by rw [← hgen.2]
        rw [String.toList_ofList] at this
        simp only [String.reduceToList, List.cons.injEq] at this
        rw [this.1] at h1
        revert h1; decide
      | _ => cases hgen
    · have hl : "-Infinity".toList = '-' :: 'I' :: ['n', 'f', 'i', 'n', 'i', 't', 'y'] := by decide
      have key : tag "-Infinity".toList (body ++ tail) = none := by
        rw [hl]
        have num : ∀ m (d : Char) (ds : Text), Minus m → (d.isDigit = true ∨ d = '.') →
            tag ('-' :: 'I' :: ['n', 'f', 'i', 'n', 'i', 't', 'y']) (m ++ (d :: ds)) = none := by
          intro m d ds hm hd
          rcases hm with rfl | rfl
          · refine tag_head ?_
            rintro rfl
            rcases hd with h | h
            · revert h; decide
            · revert h; decide
          · rw [List.cons_append, tag, if_pos rfl]
            refine tag_head ?_
            rintro rfl
            rcases hd with h | h
            · revert h; decide
            · revert h; decide
        cases hw with
        | int h =>
          cases h with
          | dec hm h1 _ _ => rw [List.append_assoc, List.cons_append]; exact num _ _ _ hm (.inl h1)
          | hex hm _ _ _ => rw [List.append_assoc, List.cons_append]; exact num _ _ _ hm (.inl (by decide))
          | oct hm _ => rw [List.append_assoc, List.cons_append]; exact num _ _ _ hm (.inl (by decide))
        | float h =>
          cases h with
          | @point m a b e hm ha hb hne he =>
            match a, ha with
            | [], _ => simp only [List.append_assoc, List.cons_append, List.nil_append]; exact num _ _ _ hm (.inr rfl)
            | d :: ds, ha =>
              simp only [List.append_assoc, List.cons_append]
              exact num _ _ _ hm (.inl (ha d (List.mem_cons_self ..)))
          | @exp m a e hm ha hne he =>
            match a, ha, hne with
            | d :: ds, ha, _ =>
              simp only [List.append_assoc, List.cons_append]
              exact num _ _ _ hm (.inl (ha d (List.mem_cons_self ..)))
        | word b h1 h2 =>
          cases b with
          | true => exact tag_head (by decide)
          | false => exact tag_head (alpha_ne h1 (by decide)).symm
        | @punct s hs =>
          obtain ⟨d, ds, e, hf⟩ := written_first (.punct hs)
          rw [e]
          exact tag_head (symChars_facts (sym_first hs hf)).2.2.2.2.1.symm
        | str _ => exact tag_head (by decide)
        | doc h =>
          obtain ⟨r, rfl⟩ := doc_slash h
          exact tag_head (by decide)
      simp only [identTag, key]
  · -- a word
    have other : ∀ d ds, body = d :: ds → c ≠ d → tok.kw k (t :: ts) = .fail →
        tok.kw k (t :: ts) = .unknown ∨ (tok.kw k (t :: ts) = .fail ∧ identTag k.toList (body ++ tail) = none) ∨
        (∃ a, tok.kw k (t :: ts) = .ok a ts ∧ identTag k.toList (body ++ tail) = some (a, tail)) := by
      intro d ds e hcd hf
      refine .inr (.inl ⟨hf, ?_⟩)
      simp only [identTag, hcs, e, List.cons_append, tag_head hcd]
    obtain ⟨d, ds, e, hf⟩ := written_first hw
    cases hw with
    | @word b x xs h1 h2 =>
      cases b with
      | true =>
        refine other '_' _ rfl (alpha_ne hc (by decide)) (key_fail (by simp))
      | false =>
        simp only [Bool.false_eq_true, if_false, List.nil_append]
        have hx := word_chars h1 h2
        have ht : ∀ c, tail.head? = some c → isWordChar c = false := by
          intro c hc
          have := hg c hc
          cases hb : isWordChar c with
          | false => rfl
          | true => exact absurd ((isWordChar_iff c).1 hb) this
        by_cases ek : k = String.ofList (x :: xs)
        · subst ek
          refine .inr (.inr ⟨(), key_ok _ _, ?_⟩)
          rw [String.toList_ofList, identTag, tag_self]
          match tail, ht with
          | [], _ => rfl
          | c :: tail, ht =>
            have := ht c rfl
            simp [this]
        · refine .inr (.inl ⟨key_fail (fun e => ek (by
            simp only [List.head?_cons, Option.some.injEq, Tok.word.injEq, true_and] at e
            exact e.symm)), ?_⟩)
          rw [identTag]
          cases ht' : tag k.toList (x :: xs ++ tail) with
          | none => rfl
          | some r =>
            have := tag_some ht'
            match r, this with
            | [], this =>
              exfalso
              have e1 := (takeWhile_append hx ht).1
              rw [this, (takeWhile_append hkc (tail := []) (by simp)).1] at e1
              exact ek (by rw [← e1, String.ofList_toList])
            | c :: r, this =>
              dsimp only
              cases hcw : isWordChar c with
              | true => rfl
              | false =>
                exfalso
                have e1 := (takeWhile_append hx ht).1
                rw [this, (takeWhile_append hkc (tail := c :: r) (by simpa using hcw)).1] at e1
                exact ek (by rw [← e1, String.ofList_toList])
    | punct hs =>
      refine other d ds e ?_ (key_fail (by simp))
      have := symChars_facts (sym_first hs hf)
      rintro rfl
      have h2 := this.2.2.2.2.2
      rw [isAlnum, hc] at h2; cases h2
    | str _ => exact other d ds e (by rw [hf]; exact alpha_ne hc (by decide)) (key_fail (by simp))
    | int _ =>
      refine other d ds e ?_ (key_fail (by simp))
      rcases hf with rfl | h
      · exact alpha_ne hc (by decide)
      · exact alpha_ne hc (digit_alpha h)
    | float _ =>
      refine other d ds e ?_ (key_fail (by simp))
      rcases hf with rfl | h | rfl
      · exact alpha_ne hc (by decide)
      · exact alpha_ne hc (digit_alpha h)
      · exact alpha_ne hc (by decide)
    | doc _ => exact other d ds e (by rw [hf]; exact alpha_ne hc (by decide)) (key_fail (by simp))

theorem takeWhile_split {f g : Char → Bool} (h : ∀ c, f c = true → g c = true) (s : Text) :
    s.takeWhile f ++ (s.dropWhile f).takeWhile g = s.takeWhile g ∧
    (s.dropWhile f).dropWhile g = s.dropWhile g := by
  induction s with
  | nil => exact ⟨rfl, rfl⟩
  | cons c s ih =>
    by_cases hf : f c = true
    · rw [List.takeWhile_cons_of_pos hf, List.dropWhile_cons_of_pos hf, List.takeWhile_cons_of_pos (h c hf),
        List.dropWhile_cons_of_pos (h c hf), List.cons_append, ih.1, ih.2]
      exact ⟨rfl, rfl⟩
    · rw [List.takeWhile_cons_of_neg hf, List.dropWhile_cons_of_neg hf]
      exact ⟨rfl, rfl⟩

theorem lexIdent_word {x : Char} {xs tail : Text} (h1 : x.isAlpha = true) (h2 : ∀ d ∈ xs, wordChar d)
    (ht : ∀ c, tail.head? = some c → ¬ wordChar c) (b : Bool) :
    lexIdent ((if b then ['_'] else []) ++ (x :: xs) ++ tail) = some (String.ofList (x :: xs), tail) := by
  have hx := word_chars h1 h2
  have ht' : ∀ c, tail.head? = some c → isWordChar c = false := by
    intro c hc
    have := ht c hc
    cases hb : isWordChar c with
    | false => rfl
    | true => exact absurd ((isWordChar_iff c).1 hb) this
  have hsp := takeWhile_split (f := isAlnum) (g := isWordChar) (by
    intro c hc; simp [isWordChar, hc]) (x :: xs ++ tail)
  have hne : (x :: xs ++ tail).takeWhile isAlnum ≠ [] := by
    rw [List.cons_append, List.takeWhile_cons_of_pos (by simp [isAlnum, h1])]
    simp
  have e : lexIdent ((if b then ['_'] else []) ++ (x :: xs) ++ tail) =
      if (x :: xs ++ tail).takeWhile isAlnum = [] then none
      else some (String.ofList ((x :: xs ++ tail).takeWhile isAlnum ++
        ((x :: xs ++ tail).dropWhile isAlnum).takeWhile isWordChar),
        ((x :: xs ++ tail).dropWhile isAlnum).dropWhile isWordChar) := by
    cases b with
    | true => simp [lexIdent]
    | false => simp [lexIdent, alpha_ne h1 (d := '_') (by decide)]
  rw [e, if_neg hne, hsp.1, hsp.2, (takeWhile_append hx ht').1, (takeWhile_append hx ht').2]

theorem lexIdent_none {d : Char} {ds : Text} (h1 : d ≠ '_') (h2 : isAlnum d = false) : lexIdent (d :: ds) = none := by
  simp [lexIdent, h1, h2]

theorem c_ident : Comm text.ident tok.ident := by
  refine comm_ws rfl rfl ?_
  intro t ts body tail hw hg
  cases hw with
  | word b h1 h2 => exact .inr (.inr ⟨_, rfl, lexIdent_word h1 h2 hg b⟩)
  | int _ => exact .inl rfl
  | float _ => exact .inl rfl
  | @punct s hs =>
    obtain ⟨d, ds, e, hf⟩ := written_first (.punct hs)
    have := symChars_facts (sym_first hs hf)
    refine .inr (.inl ⟨rfl, ?_⟩)
    rw [e]
    exact lexIdent_none this.2.2.1 this.2.2.2.2.2
  | str _ => exact .inr (.inl ⟨rfl, lexIdent_none (by decide) (by decide)⟩)
  | doc h =>
    obtain ⟨r, rfl⟩ := doc_slash h
    exact .inr (.inl ⟨rfl, lexIdent_none (by decide) (by decide)⟩)

theorem c_str : Comm text.str tok.str := by
  refine comm_ws rfl rfl ?_
  intro t ts body tail hw hg
  have no : ∀ (d : Char) (ds : Text), d ≠ '"' → lexStr (d :: ds) = none := by
    intro d ds h
    rw [lexStr, if_neg h]
  obtain ⟨d, ds, e, hf⟩ := written_first hw
  cases hw with
  | @str s hs =>
    refine .inr (.inr ⟨_, rfl, ?_⟩)
    have := takeWhile_append (f := fun c => decide (c ≠ '"')) (n := s) (tail := '"' :: tail)
      (by intro c hc; simp; rintro rfl; exact hs hc) (by simp)
    have e : '"' :: s ++ ['"'] ++ tail = '"' :: (s ++ '"' :: tail) := by simp
    rw [e, lexStr, if_pos rfl, this.2, this.1]
  | word b h1 _ =>
    refine .inr (.inl ⟨rfl, ?_⟩)
    rw [e]
    rcases hf with ⟨_, rfl⟩ | ⟨_, h⟩
    · exact no _ _ (by decide)
    · exact no _ _ (alpha_ne h (by decide))
  | punct hs =>
    refine .inr (.inl ⟨rfl, ?_⟩)
    rw [e]
    exact no _ _ (symChars_facts (sym_first hs hf)).2.2.2.1
  | int _ =>
    refine .inr (.inl ⟨rfl, ?_⟩)
    rw [e]
    rcases hf with rfl | h
    · exact no _ _ (by decide)
    · exact no _ _ (digit_ne h (by decide))
  | float _ =>
    refine .inr (.inl ⟨rfl, ?_⟩)
    rw [e]
    rcases hf with rfl | h | rfl
    · exact no _ _ (by decide)
    · exact no _ _ (digit_ne h (by decide))
    · exact no _ _ (by decide)
  | doc _ =>
    refine .inr (.inl ⟨rfl, ?_⟩)
    rw [e]
    cases hf
    exact no _ _ (by decide)

/-! ### Numbers -/

theorem char_nat (c : Char) : c.toNat = c.val.toNat := rfl

theorem isDigit_nat {c : Char} : c.isDigit = true ↔ 48 ≤ c.toNat ∧ c.toNat ≤ 57 := by
  simp only [Char.isDigit, Bool.and_eq_true, decide_eq_true_eq, ge_iff_le, UInt32.le_iff_toNat_le, char_nat]
  have e : '0'.val.toNat = 48 ∧ '9'.val.toNat = 57 := by decide
  rw [e.1, e.2]

theorem isAlpha_nat {c : Char} : c.isAlpha = true ↔
    (65 ≤ c.toNat ∧ c.toNat ≤ 90) ∨ (97 ≤ c.toNat ∧ c.toNat ≤ 122) := by
  simp only [Char.isAlpha, Char.isUpper, Char.isLower, Bool.or_eq_true, Bool.and_eq_true, decide_eq_true_eq, ge_iff_le,
    UInt32.le_iff_toNat_le, char_nat]
  have e : 'A'.val.toNat = 65 ∧ 'Z'.val.toNat = 90 ∧ 'a'.val.toNat = 97 ∧ 'z'.val.toNat = 122 := by decide
  rw [e.1, e.2.1, e.2.2.1, e.2.2.2]

theorem le_nat {c d : Char} : c ≤ d ↔ c.toNat ≤ d.toNat := by
  rw [Char.le_def, UInt32.le_iff_toNat_le, char_nat, char_nat]

theorem ten {c : Char} : isDigit 10 c = true ↔ c.isDigit = true := by
  rw [isDigit_nat]
  simp only [isDigit, toDigit]
  by_cases h : 48 ≤ c.toNat ∧ c.toNat ≤ 57
  · rw [if_pos h]
    have : c.toNat - 48 < 10 := by omega
    simp [this, h]
  · rw [if_neg h]
    by_cases h2 : 97 ≤ c.toNat ∧ c.toNat ≤ 102
    · rw [if_pos h2]
      have : ¬ c.toNat - 87 < 10 := by omega
      simp [this]; omega
    · rw [if_neg h2]
      by_cases h3 : 65 ≤ c.toNat ∧ c.toNat ≤ 70
      · rw [if_pos h3]
        have : ¬ c.toNat - 55 < 10 := by omega
        simp [this]; omega
      · rw [if_neg h3]; simp; omega

theorem eight {c : Char} : isDigit 8 c = true ↔ '0' ≤ c ∧ c ≤ '7' := by
  rw [le_nat, le_nat]
  have e : '0'.toNat = 48 ∧ '7'.toNat = 55 := by decide
  rw [e.1, e.2]
  simp only [isDigit, toDigit]
  by_cases h : 48 ≤ c.toNat ∧ c.toNat ≤ 57
  · rw [if_pos h]
    by_cases h8 : c.toNat - 48 < 8
    · simp [h8]; omega
    · simp [h8]; omega
  · rw [if_neg h]
    by_cases h2 : 97 ≤ c.toNat ∧ c.toNat ≤ 102
    · rw [if_pos h2]
      have : ¬ c.toNat - 87 < 8 := by omega
      simp [this]; omega
    · rw [if_neg h2]
      by_cases h3 : 65 ≤ c.toNat ∧ c.toNat ≤ 70
      · rw [if_pos h3]
        have : ¬ c.toNat - 55 < 8 := by omega
        simp [this]; omega
      · rw [if_neg h3]; simp; omega

theorem sixteen {c : Char} : isDigit 16 c = true ↔ hexDigit c := by
  simp only [hexDigit, le_nat, isDigit_nat]
  have e : 'a'.toNat = 97 ∧ 'f'.toNat = 102 ∧ 'A'.toNat = 65 ∧ 'F'.toNat = 70 := by decide
  rw [e.1, e.2.1, e.2.2.1, e.2.2.2]
  simp only [isDigit, toDigit]
  by_cases h : 48 ≤ c.toNat ∧ c.toNat ≤ 57
  · rw [if_pos h]
    have : c.toNat - 48 < 16 := by omega
    simp [this, h]
  · rw [if_neg h]
    by_cases h2 : 97 ≤ c.toNat ∧ c.toNat ≤ 102
    · rw [if_pos h2]
      have : c.toNat - 87 < 16 := by omega
      simp [this, h2]
    · rw [if_neg h2]
      by_cases h3 : 65 ≤ c.toNat ∧ c.toNat ≤ 70
      · rw [if_pos h3]
        have : c.toNat - 55 < 16 := by omega
        simp [this, h3]
      · rw [if_neg h3]
        simp only [Option.isSome_none, Bool.false_eq_true, false_iff]
        rintro (h4 | h4 | h4) <;> contradiction

/-- What must not follow a number. -/
def numEnd (tail : Text) : Prop := ∀ c, tail.head? = some c → ¬ (c.isAlpha = true ∨ c.isDigit = true ∨ c = '.')

theorem numEnd_digit {tail : Text} (h : numEnd tail) : ∀ c, tail.head? = some c → c.isDigit = false := by
  intro c hc
  have := h c hc
  simp only [not_or, Bool.not_eq_true] at this
  exact this.2.1

theorem numEnd_radix {tail : Text} (h : numEnd tail) (r : Nat) (hr : r ≤ 16) :
    ∀ c, tail.head? = some c → isDigit r c = false := by
  intro c hc
  have := h c hc
  rw [isAlpha_nat, isDigit_nat] at this
  simp only [isDigit, toDigit]
  rw [if_neg (by omega), if_neg (by omega), if_neg (by omega)]
  rfl

theorem lexUnsigned_dec {m : Text} {c : Char} {ds tail : Text} (h1 : c.isDigit = true) (h2 : c ≠ '0') (h3 : Digits ds)
    (ht : numEnd tail) : lexUnsigned m (c :: ds ++ tail) = some (.decimal, m ++ c :: ds, tail) := by
  have := takeWhile_append (f := isDigit 10) (fun c hc => ten.2 (h3 c hc)) (numEnd_radix ht 10 (by omega))
  unfold lexUnsigned
  simp only [List.cons_append, if_neg h2, if_pos (ten.2 h1), this.1, this.2]

theorem lexUnsigned_hex {m : Text} {x : Char} {ds tail : Text} (h1 : x = 'x' ∨ x = 'X') (h3 : ∀ c ∈ ds, hexDigit c)
    (ht : numEnd tail) : lexUnsigned m ('0' :: x :: ds ++ tail) = some (.hexadecimal, m ++ '0' :: x :: ds, tail) := by
  have := takeWhile_append (f := isDigit 16) (fun c hc => sixteen.2 (h3 c hc)) (numEnd_radix ht 16 (by omega))
  simp only [List.cons_append, lexUnsigned, h1, if_true, this.1, this.2]

theorem lexUnsigned_oct {m ds tail : Text} (h3 : ∀ c ∈ ds, '0' ≤ c ∧ c ≤ '7')
    (ht : numEnd tail) : lexUnsigned m ('0' :: ds ++ tail) = some (.octal, m ++ '0' :: ds, tail) := by
  have h := takeWhile_append (f := isDigit 8) (fun c hc => eight.2 (h3 c hc)) (numEnd_radix ht 8 (by omega))
  have hx : ∀ x ys, ds ++ tail = x :: ys → ¬ (x = 'x' ∨ x = 'X') := by
    intro x ys e
    match ds, tail, h3, ht, e with
    | [], t :: ts, _, ht, e =>
      simp only [List.nil_append, List.cons.injEq] at e
      have := ht t rfl
      rw [e.1] at this
      rintro (rfl | rfl)
      · exact this (.inl (by decide))
      · exact this (.inl (by decide))
    | d :: ds, _, h3, _, e =>
      simp only [List.cons_append, List.cons.injEq] at e
      have := h3 d (List.mem_cons_self ..)
      rw [e.1] at this
      rintro (rfl | rfl)
      · revert this; decide
      · revert this; decide
  rw [List.cons_append]
  match e : ds ++ tail with
  | [] =>
    have e' := List.append_eq_nil_iff.1 e
    rw [e'.1, e'.2]
    simp [lexUnsigned]
  | x :: ys =>
    rw [e] at h
    simp only [lexUnsigned, if_true, if_neg (hx x ys e), h.1, h.2]

theorem lexInt_minus {m s : Text} (hm : Minus m) (h : ∀ c, s.head? = some c → c ≠ '-') (hs : s ≠ []) :
    lexInt (m ++ s) = lexUnsigned m s := by
  rcases hm with rfl | rfl
  · match s, h, hs with
    | c :: s, h, _ => rw [List.nil_append, lexInt, if_neg (h c rfl)]
  · rfl

theorem lexInt_int {t tail : Text} (h : IntText t) (ht : numEnd tail) : ∃ r, lexInt (t ++ tail) = some (r, t, tail) := by
  cases h with
  | dec hm h1 h2 h3 =>
    rw [List.append_assoc, lexInt_minus hm (by simpa using digit_ne h1 (by decide)) (by simp)]
    exact ⟨_, lexUnsigned_dec h1 h2 h3 ht⟩
  | hex hm h1 _ h3 =>
    rw [List.append_assoc, lexInt_minus hm (by simp) (by simp)]
    exact ⟨_, lexUnsigned_hex h1 h3 ht⟩
  | oct hm h3 =>
    rw [List.append_assoc, lexInt_minus hm (by simp) (by simp)]
    exact ⟨_, lexUnsigned_oct h3 ht⟩

theorem lexInt_none {d : Char} {ds : Text} (h1 : d ≠ '-') (h2 : d.isDigit = false) : lexInt (d :: ds) = none := by
  have h0 : d ≠ '0' := by rintro rfl; revert h2; decide
  have h10 : ¬ isDigit 10 d = true := by rw [ten, h2]; simp
  rw [lexInt, if_neg h1]
  unfold lexUnsigned
  dsimp only
  rw [if_neg h0, if_neg h10]

/-- Tokens other than numbers begin neither with a digit nor with a minus sign. -/
theorem first_num {t : Tok} {body : Text} (hw : Written t body) {c : Char} (hf : first t c)
    (h1 : ∀ s, t ≠ .int s) (h2 : ∀ s, t ≠ .float s) : c ≠ '-' ∧ c.isDigit = false := by
  cases hw with
  | word b _ _ =>
    rcases hf with ⟨_, rfl⟩ | ⟨_, h⟩
    · decide
    · refine ⟨alpha_ne h (by decide), ?_⟩
      cases e : c.isDigit with
      | false => rfl
      | true => rw [digit_alpha e] at h; cases h
  | punct hs =>
    have := symChars_facts (sym_first hs hf)
    refine ⟨this.2.2.2.2.1, ?_⟩
    cases e : c.isDigit with
    | false => rfl
    | true => have h := this.2.2.2.2.2; rw [isAlnum, e] at h; simp at h
  | str _ => cases hf; decide
  | int _ => exact absurd rfl (h1 _)
  | float _ => exact absurd rfl (h2 _)
  | doc _ => cases hf; decide

theorem c_int : Comm text.int tok.int := by
  refine comm_ws (q := fun s => (lexInt s).map fun (_, t, r) => (t, r)) (g := tok.int) rfl rfl ?_
  intro t ts body tail hw hg
  have other : (∀ s, t ≠ .int s) → (∀ s, t ≠ .float s) → lexInt (body ++ tail) = none := by
    intro h1 h2
    obtain ⟨d, ds, e, hf⟩ := written_first hw
    have := first_num hw hf h1 h2
    rw [e]
    exact lexInt_none this.1 this.2
  have no : lexInt (body ++ tail) = none →
      ((fun s => (lexInt s).map fun (_, t, r) => (t, r)) (body ++ tail)) = none := by
    intro h; dsimp only; rw [h]; rfl
  cases hw with
  | int h =>
    obtain ⟨r, e⟩ := lexInt_int h hg
    refine .inr (.inr ⟨_, rfl, ?_⟩)
    dsimp only
    rw [e]; rfl
  | float _ => exact .inl rfl
  | word b _ _ => exact .inr (.inl ⟨rfl, no (other (by simp) (by simp))⟩)
  | punct _ => exact .inr (.inl ⟨rfl, no (other (by simp) (by simp))⟩)
  | str _ => exact .inr (.inl ⟨rfl, no (other (by simp) (by simp))⟩)
  | doc _ => exact .inr (.inl ⟨rfl, no (other (by simp) (by simp))⟩)

theorem lexExp_none {s : Text} (h : ∀ c, s.head? = some c → c ≠ 'e' ∧ c ≠ 'E') : lexExp s = none := by
  match s, h with
  | [], _ => rfl
  | c :: s, h =>
    have := h c rfl
    unfold lexExp
    simp only [this.1, this.2, or_self, if_false]

theorem lexExp_ok {e tail : Text} (h : ExpText e) (ht : numEnd tail) : lexExp (e ++ tail) = some (e, tail) := by
  obtain ⟨x, sign, ds, rfl, hx, hs, hne, hds⟩ := h
  have htw := takeWhile_append (f := Char.isDigit) (fun c hc => hds c hc) (numEnd_digit ht)
  match ds, hne with
  | d :: ds, _ =>
    have hd := hds d (List.mem_cons_self ..)
    have h1 : d ≠ '+' := digit_ne hd (by decide)
    have h2 : d ≠ '-' := digit_ne hd (by decide)
    rcases hs with rfl | rfl | rfl
    · have : x :: [] ++ d :: ds ++ tail = x :: d :: (ds ++ tail) := by simp
      rw [this, lexExp, if_pos hx]
      rw [List.cons_append] at htw
      simp [h1, h2, htw.1, htw.2]
    · have : x :: ['+'] ++ d :: ds ++ tail = x :: '+' :: (d :: ds ++ tail) := by simp
      rw [this, lexExp, if_pos hx]
      rw [List.cons_append] at htw
      simp [htw.1, htw.2]
    · have : x :: ['-'] ++ d :: ds ++ tail = x :: '-' :: (d :: ds ++ tail) := by simp
      rw [this, lexExp, if_pos hx]
      rw [List.cons_append] at htw
      simp [htw.1, htw.2]

theorem exp_head {e : Text} (h : ExpText e) : ∃ x es, e = x :: es ∧ (x = 'e' ∨ x = 'E') := by
  obtain ⟨x, sign, ds, rfl, hx, _⟩ := h
  exact ⟨x, _, rfl, hx⟩

theorem numEnd_exp {tail : Text} (h : numEnd tail) : ∀ c, tail.head? = some c → c ≠ 'e' ∧ c ≠ 'E' := by
  intro c hc
  have := h c hc
  constructor
  · rintro rfl; exact this (.inl (by decide))
  · rintro rfl; exact this (.inl (by decide))

theorem lexUnsignedFloat_point {a b e tail : Text} (ha : Digits a) (hb : Digits b) (hne : a ≠ [] ∨ b ≠ [])
    (he : e = [] ∨ ExpText e) (ht : numEnd tail) :
    lexUnsignedFloat (a ++ '.' :: b ++ e ++ tail) = some (a ++ '.' :: b ++ e, tail) := by
  have h1 := takeWhile_append (f := Char.isDigit) (n := a) (tail := '.' :: (b ++ (e ++ tail))) (fun c hc => ha c hc)
    (by simp)
  have hb' : ∀ c, (e ++ tail).head? = some c → c.isDigit = false := by
    rcases he with rfl | he
    · exact numEnd_digit ht
    · obtain ⟨x, es, rfl, hx⟩ := exp_head he
      simp only [List.cons_append, List.head?_cons, Option.some.injEq]
      rintro c rfl
      rcases hx with rfl | rfl <;> decide
  have h2 := takeWhile_append (f := Char.isDigit) (n := b) (tail := e ++ tail) (fun c hc => hb c hc) hb'
  have heq : a ++ '.' :: b ++ e ++ tail = a ++ '.' :: (b ++ (e ++ tail)) := by simp
  rw [heq, lexUnsignedFloat]
  dsimp only
  rw [h1.1, h1.2]
  dsimp only
  rw [h2.1, h2.2, if_pos ⟨rfl, hne⟩]
  rcases he with rfl | he
  · rw [List.nil_append, lexExp_none (numEnd_exp ht)]
    simp
  · rw [lexExp_ok he ht]

theorem lexUnsignedFloat_exp {a e tail : Text} (ha : Digits a) (hne : a ≠ []) (he : ExpText e) (ht : numEnd tail) :
    lexUnsignedFloat (a ++ e ++ tail) = some (a ++ e, tail) := by
  have hexp := lexExp_ok he ht
  obtain ⟨x, es, rfl, hx⟩ := exp_head he
  have h1 := takeWhile_append (f := Char.isDigit) (n := a) (tail := x :: (es ++ tail)) (fun c hc => ha c hc)
    (by simp only [List.head?_cons, Option.some.injEq]; rintro c rfl; rcases hx with rfl | rfl <;> decide)
  have heq : a ++ x :: es ++ tail = a ++ x :: (es ++ tail) := by simp
  rw [heq, lexUnsignedFloat]
  dsimp only
  rw [h1.1, h1.2]
  dsimp only
  rw [List.cons_append] at hexp
  rw [if_neg (by rintro ⟨rfl, _⟩; rcases hx with h | h <;> revert h <;> decide), if_neg hne, hexp]
  rfl

theorem lexFloat_minus {m s : Text} (hm : Minus m) (h : ∀ c, s.head? = some c → c ≠ '-') (hs : s ≠ []) :
    lexFloat (m ++ s) = (lexUnsignedFloat s).map fun (t, r) => (String.ofList (m ++ t), r) := by
  rcases hm with rfl | rfl
  · match s, h, hs with
    | c :: s, h, _ => rw [List.nil_append, lexFloat, if_neg (h c rfl)]; rfl
  · rfl

theorem lexFloat_float {t tail : Text} (h : FloatText t) (ht : numEnd tail) :
    lexFloat (t ++ tail) = some (String.ofList t, tail) := by
  cases h with
  | @point m a b e hm ha hb hne he =>
    have heq : m ++ a ++ '.' :: b ++ e ++ tail = m ++ (a ++ '.' :: b ++ e ++ tail) := by simp
    rw [heq, lexFloat_minus hm ?_ (by simp), lexUnsignedFloat_point ha hb hne he ht]
    · simp
    · match a, ha with
      | [], _ => simp
      | c :: a, ha => simpa using digit_ne (ha c (List.mem_cons_self ..)) (d := '-') (by decide)
  | @exp m a e hm ha hne he =>
    have heq : m ++ a ++ e ++ tail = m ++ (a ++ e ++ tail) := by simp
    rw [heq, lexFloat_minus hm ?_ ?_, lexUnsignedFloat_exp ha hne he ht]
    · simp
    · match a, ha, hne with
      | c :: a, ha, _ => simpa using digit_ne (ha c (List.mem_cons_self ..)) (d := '-') (by decide)
    · simp [hne]

/-- Digits that are followed neither by a point nor by an exponent are no floating-point number. -/
theorem lexUnsignedFloat_none {a s : Text} (ha : Digits a) (hs : ∀ c, s.head? = some c → c.isDigit = false)
    (h : ∀ c, s.head? = some c → c ≠ '.' ∧ c ≠ 'e' ∧ c ≠ 'E') : lexUnsignedFloat (a ++ s) = none := by
  have h1 := takeWhile_append (f := Char.isDigit) (fun c hc => ha c hc) hs
  rw [lexUnsignedFloat]
  dsimp only
  rw [h1.1, h1.2]
  match s, h with
  | [], _ => rfl
  | c :: s, h =>
    have := h c rfl
    dsimp only
    rw [if_neg (by simp [this.1]), lexExp_none (by simpa using this.2)]
    split <;> rfl

theorem oct_digit {c : Char} (h : '0' ≤ c ∧ c ≤ '7') : c.isDigit = true := by
  rw [le_nat, le_nat] at h
  rw [isDigit_nat]
  have e : '0'.toNat = 48 ∧ '7'.toNat = 55 := by decide
  omega

theorem numEnd_float {tail : Text} (h : numEnd tail) : ∀ c, tail.head? = some c → c ≠ '.' ∧ c ≠ 'e' ∧ c ≠ 'E' := by
  intro c hc
  refine ⟨?_, numEnd_exp h c hc⟩
  rintro rfl
  exact h '.' hc (.inr (.inr rfl))

theorem lexFloat_int {t tail : Text} (h : IntText t) (ht : numEnd tail) : lexFloat (t ++ tail) = none := by
  cases h with
  | @dec m c ds hm h1 h2 h3 =>
    rw [List.append_assoc, lexFloat_minus hm (by simpa using digit_ne h1 (by decide)) (by simp)]
    rw [lexUnsignedFloat_none (a := c :: ds) ?_ (numEnd_digit ht) (numEnd_float ht)]
    · rfl
    · intro d hd
      rcases List.mem_cons.1 hd with rfl | hd
      · exact h1
      · exact h3 d hd
  | @hex m x ds hm h1 _ h3 =>
    have heq : m ++ '0' :: x :: ds ++ tail = m ++ (['0'] ++ (x :: ds ++ tail)) := by simp
    rw [heq, lexFloat_minus hm (by simp) (by simp),
      lexUnsignedFloat_none (a := ['0']) (by intro c hc; simp at hc; subst hc; decide)]
    · rfl
    · simp only [List.cons_append, List.head?_cons, Option.some.injEq]
      rintro c rfl
      rcases h1 with rfl | rfl <;> decide
    · simp only [List.cons_append, List.head?_cons, Option.some.injEq]
      rintro c rfl
      rcases h1 with rfl | rfl <;> decide
  | @oct m ds hm h3 =>
    rw [List.append_assoc, lexFloat_minus hm (by simp) (by simp)]
    rw [lexUnsignedFloat_none (a := '0' :: ds) ?_ (numEnd_digit ht) (numEnd_float ht)]
    · rfl
    · intro d hd
      rcases List.mem_cons.1 hd with rfl | hd
      · decide
      · exact oct_digit (h3 d hd)

theorem lexFloat_none {d : Char} {ds : Text} (h1 : d ≠ '-') (h2 : d.isDigit = false)
    (h3 : d = '.' → ∀ c, ds.head? = some c → c.isDigit = false) : lexFloat (d :: ds) = none := by
  rw [lexFloat, if_neg h1, lexUnsignedFloat]
  dsimp only
  rw [List.takeWhile_cons_of_neg (by simp [h2]), List.dropWhile_cons_of_neg (by simp [h2])]
  dsimp only
  rw [if_neg, if_pos rfl]
  · rfl
  · rintro ⟨e, h | h⟩
    · exact h rfl
    · match ds, h3 e with
      | [], _ => exact h rfl
      | c :: ds, h3 =>
        rw [List.takeWhile_cons_of_neg (by simp [h3 c rfl])] at h
        exact h rfl

theorem c_float : Comm text.float tok.float := by
  refine comm_ws (q := lexFloat) rfl rfl ?_
  intro t ts body tail hw hg
  have other : (∀ s, t ≠ .int s) → (∀ s, t ≠ .float s) → (∀ s, t ≠ .punct s) → lexFloat (body ++ tail) = none := by
    intro h1 h2 h3
    obtain ⟨d, ds, e, hf⟩ := written_first hw
    have := first_num hw hf h1 h2
    rw [e]
    refine lexFloat_none this.1 this.2 ?_
    rintro rfl
    exfalso
    cases hw with
    | word b _ _ =>
      rcases hf with ⟨_, h⟩ | ⟨_, h⟩
      · revert h; decide
      · revert h; decide
    | punct hs => exact h3 _ rfl
    | str _ => revert hf; show ¬ ('.' = '"'); decide
    | int _ => exact absurd rfl (h1 _)
    | float _ => exact absurd rfl (h2 _)
    | doc _ => revert hf; show ¬ ('.' = '/'); decide
  have hw' := hw
  cases hw with
  | int h => exact .inr (.inl ⟨rfl, lexFloat_int h hg⟩)
  | float h => exact .inr (.inr ⟨_, rfl, lexFloat_float h hg⟩)
  | word b _ _ => exact .inr (.inl ⟨rfl, other (by simp) (by simp) (by simp)⟩)
  | @punct s hs =>
    refine .inr (.inl ⟨rfl, ?_⟩)
    obtain ⟨d, ds, e, hf⟩ := written_first hw'
    have := first_num hw' hf (by simp) (by simp)
    rw [e]
    refine lexFloat_none this.1 this.2 ?_
    rintro rfl
    have h2 : ∀ x ∈ symbols, x.toList.head? = some '.' → x.toList = ['.', '.', '.'] := by decide
    have h3 := h2 s hs (by rw [e]; rfl)
    rw [e] at h3
    simp only [List.cons.injEq, true_and] at h3
    rw [h3]
    intro c hc
    have : some '.' = some c := hc
    cases this
    decide
  | str _ => exact .inr (.inl ⟨rfl, other (by simp) (by simp) (by simp)⟩)
  | doc _ => exact .inr (.inl ⟨rfl, other (by simp) (by simp) (by simp)⟩)

/-! ### Documentation -/

theorem dropSpace_all {gap s : Text} (h : ∀ c ∈ gap, space c) (hs : ∀ c, s.head? = some c → isSpace c = false) :
    (gap ++ s).dropWhile isSpace = s :=
  (takeWhile_append (fun c hc => (isSpace_iff c).2 (h c hc)) hs).2

theorem takeLine {l s : Text} (h : '\n' ∉ l) : (l ++ '\n' :: s).takeWhile (fun c => decide (c ≠ '\n')) = l :=
  (takeWhile_append (by intro c hc; simp; rintro rfl; exact h hc) (by simp)).1

theorem docLine_ok {gap l s : Text} (hg : ∀ c ∈ gap, space c) (h : '\n' ∉ l) :
    docLine (gap ++ ('/' :: '/' :: '/' :: (l ++ '\n' :: s))) = some (l, s) := by
  have h1 := dropSpace_all (s := '/' :: '/' :: '/' :: (l ++ '\n' :: s)) hg (by simp; decide)
  have h2 := tag_self ['/', '/', '/'] (l ++ '\n' :: s)
  simp only [List.cons_append, List.nil_append] at h2
  rw [docLine, h1, h2]
  dsimp only
  rw [afterNewline_append h, takeLine h]
  rfl

/-- Text that does not go on with documentation. -/
theorem docLine_none {gap s : Text} {ts : List Tok} (hg : Trivia gap) (hs : Spells ts s) (hd : ¬ startsWithDoc ts) :
    docLine (gap ++ s) = none := by
  have key : tag ['/', '/', '/'] ((gap ++ s).dropWhile isSpace) = none := by
    rw [dropSpace_append (skip_space (skip_spells hs))]
    have ht := trivia_dropSpace hg
    generalize hd' : gap.dropWhile isSpace = g at ht
    cases ht with
    | nil =>
      rw [List.nil_append]
      cases hs with
      | nil => rfl
      | @cons t ts body gap s hw _ _ _ _ =>
        obtain ⟨c, cs, rfl, hf⟩ := written_first hw
        have : ¬ isDoc t := by cases t <;> first | exact fun h => h | exact hd
        exact tag_head (first_facts hw hf this).1.symm
    | @space c g' hc _ =>
      exfalso
      have : ∀ (l : Text) (c : Char) (g' : Text), l.dropWhile isSpace = c :: g' → isSpace c = false := by
        intro l
        induction l with
        | nil => intro c g' e; cases e
        | cons d l ih =>
          intro c g' e
          by_cases hd : isSpace d = true
          · rw [List.dropWhile_cons_of_pos hd] at e; exact ih c g' e
          · rw [List.dropWhile_cons_of_neg hd] at e
            simp only [List.cons.injEq] at e
            rw [← e.1]; simpa using hd
      have h1 := this gap c g' hd'
      rw [(isSpace_iff c).2 hc] at h1
      cases h1
    | @line l s' h1 h2 h3 =>
      have e : '/' :: '/' :: l ++ '\n' :: s' ++ s = '/' :: '/' :: (l ++ '\n' :: (s' ++ s)) := by simp
      rw [e, tag, if_pos rfl, tag, if_pos rfl]
      match l, h2 with
      | [], _ => exact tag_head (by decide)
      | c :: l, h2 => exact tag_head (by rintro rfl; exact h2 rfl)
    | @block b s' h1 h2 =>
      have e : '/' :: '*' :: b ++ '*' :: '/' :: s' ++ s = '/' :: '*' :: (b ++ '*' :: '/' :: (s' ++ s)) := by simp
      rw [e, tag, if_pos rfl]
      exact tag_head (by decide)
  rw [docLine, key]

theorem docLines_none {s : Text} (h : docLine s = none) (n : Nat) : docLines n s = ([], s) := by
  cases n with
  | zero => rfl
  | succ n => rw [docLines, h]

theorem docLines_ok {ls : List Text} {s : Text} (h : DocText ls s) : ∀ {gap tail : Text}, (∀ c ∈ gap, space c) →
    docLine tail = none → ∀ n, s.length ≤ n → docLines n (gap ++ (s ++ tail)) = (ls, tail) := by
  induction h with
  | @one l hl =>
    intro gap tail hg ht n hn
    cases n with
    | zero => simp at hn
    | succ n =>
      have e : '/' :: '/' :: '/' :: l ++ ['\n'] ++ tail = '/' :: '/' :: '/' :: (l ++ '\n' :: tail) := by simp
      rw [e, docLines, docLine_ok hg hl]
      dsimp only
      rw [docLines_none ht]
  | @cons l gap' ls s hl hg' _ ih =>
    intro gap tail hg ht n hn
    cases n with
    | zero => simp at hn
    | succ n =>
      have e : '/' :: '/' :: '/' :: l ++ '\n' :: gap' ++ s ++ tail =
          '/' :: '/' :: '/' :: (l ++ '\n' :: (gap' ++ (s ++ tail))) := by simp
      rw [e, docLines, docLine_ok hg hl]
      dsimp only
      rw [ih hg' ht n (by simp at hn; omega)]

theorem doc_nonempty {ls : List Text} {s : Text} (h : DocText ls s) : ls ≠ [] := by
  cases h <;> simp

theorem c_doc : Comm text.doc tok.doc := by
  rintro ts s ⟨gap, core, rfl, hg, hs, hnil, hsp⟩
  by_cases hd : startsWithDoc ts
  · have hsp' := hsp hd
    cases hs with
    | nil => exact absurd hd (fun h => h)
    | @cons t ts body gap' s hw hg' hs' hc hl =>
      cases hw with
      | @doc ls body hdt =>
        have hnext := hl trivial
        have hdn := docLine_none hg' hs' hnext.2
        have e := docLines_ok hdt hsp' hdn (gap ++ (body ++ gap' ++ s)).length (by simp; omega)
        refine ⟨gap' ++ s, ?_, gap', s, rfl, hg', hs', fun h => absurd h hnext.1, fun h => absurd h hnext.2⟩
        show lexDoc (gap ++ (body ++ gap' ++ s)) = _
        unfold lexDoc
        rw [List.append_assoc body gap' s] at e ⊢
        rw [e]
        match ls, doc_nonempty hdt with
        | _ :: _, _ => rfl
      | _ => exact absurd hd (fun h => h)
  · have e1 : tok.doc ts = .fail := by
      unfold tok tokDoc
      dsimp only
      split
      · exact absurd trivial hd
      · rfl
    rw [e1]
    show lexDoc (gap ++ core) = .fail
    unfold lexDoc
    rw [docLines_none (docLine_none hg hs hd)]

/-- The basic parsers for text do what those for tokens do. -/
theorem basic : CommBasic text where
  punct _ hx := c_punct hx
  kw _ hk := c_kw hk
  ident := c_ident
  int := c_int
  float := c_float
  str := c_str
  doc := c_doc

end Verif.Udl.TextChar
