import Verif.Gen.NamesLemmas2

/-!
# C83: names in generated bindings

Every name of the API becomes a name that the language accepts, and different names stay different.
-/

namespace Verif.Props.BindingNames

open Verif.Gen.Names Verif.Gen.NamesSpec

/-! ## Shapes -/

theorem letterFirst_iff (s : Name) : LetterFirst s ↔ ∃ c r, letters s = c :: r ∧ c.isLower = true := by
  unfold LetterFirst letters
  cases h : s.filter Char.isAlphanum with
  | nil => simp
  | cons c r =>
    have hc : c.isAlphanum = true := (List.mem_filter.1 (h ▸ List.mem_cons_self : c ∈ s.filter _)).2
    constructor
    · intro ha; exact ⟨_, _, rfl, lower_isLower ha⟩
    · rintro ⟨d, r', hd, hl⟩
      simp only [List.map_cons, List.cons.injEq] at hd
      rw [← hd.1] at hl
      simp only [Char.isAlphanum, Bool.or_eq_true] at hc
      rcases hc with hc | hc
      · exact hc
      · rw [(digit_same hc).1] at hl
        rw [lower_not_digit hl] at hc; simp at hc

theorem letterFirst_congr {s t : Name} (h : letters s = letters t) : LetterFirst s ↔ LetterFirst t := by
  rw [letterFirst_iff, letterFirst_iff, h]

theorem letters_nil {o : Name} (h2 : ∀ c ∈ o.head?, c.isAlphanum = true) : letters o = [] ↔ o = [] := by
  cases o with
  | nil => simp [letters]
  | cons c o => simp [letters, List.filter_cons_of_pos (h2 c (by simp))]

theorem ident_iff {o s : Name} (h1 : ∀ c ∈ o, IdChar c) (h2 : ∀ c ∈ o.head?, c.isAlphanum = true)
    (h3 : letters o = letters s) : Ident o ↔ LetterFirst s := by
  rw [← letterFirst_congr h3]
  cases o with
  | nil => simp [Ident, LetterFirst]
  | cons c o =>
    have hc := h2 c (by simp)
    unfold LetterFirst
    rw [List.filter_cons_of_pos hc]
    constructor
    · rintro ⟨h | rfl, _⟩
      · exact h
      · exact absurd hc (by decide)
    · exact fun h => ⟨.inl h, fun d hd => h1 d (by simp [hd])⟩

/-- A name made of the characters of names that begins with a letter or a digit. -/
structure Shape (o s : Name) : Prop where
  chars : ∀ c ∈ o, IdChar c
  head : ∀ c ∈ o.head?, c.isAlphanum = true
  letters : letters o = letters s

theorem join_chars {ws : List Name} (h : ∀ w ∈ ws, w ≠ [] ∧ ∀ c ∈ w, c.isAlphanum = true) :
    (∀ c ∈ join ws, IdChar c) ∧ ∀ c ∈ (join ws).head?, c.isAlphanum = true := by
  induction ws with
  | nil => simp [join]
  | cons w ws ih =>
    have ih := ih fun x hx => h x (by simp [hx])
    obtain ⟨hn, ha⟩ := h w (by simp)
    rw [join_cons]
    refine ⟨?_, ?_⟩
    · intro c hc
      rcases List.mem_append.1 hc with hc | hc
      · exact .inl (ha c hc)
      · cases ws with
        | nil => simp [tailOf] at hc
        | cons v vs =>
          rcases List.mem_cons.1 hc with rfl | hc
          · exact .inr rfl
          · exact ih.1 c hc
    · cases w with
      | nil => simp at hn
      | cons c w => simpa using ha c (by simp)

theorem camel_chars {ws : List Name} (h : Words ws) :
    (∀ c ∈ camelName ws, c.isAlphanum = true) := by
  intro c hc
  obtain ⟨v, hv, hc⟩ := List.mem_flatten.1 hc
  obtain ⟨w, hw, rfl⟩ := List.mem_map.1 hv
  have hl := (h w hw).2
  cases w with
  | nil => simp [cap] at hc
  | cons d w =>
    rcases List.mem_cons.1 hc with rfl | hc
    · exact upper_alnum (low_alnum (hl d (by simp)))
    · exact low_alnum (hl c (by simp [hc]))

theorem mem_head {α} {l : List α} {c : α} (h : c ∈ l.head?) : c ∈ l := by
  cases l <;> simp at h ⊢
  exact .inl h.symm

theorem shape_snake (s : Name) : Shape (snake s) s := by
  have := join_chars (ws := lw s) fun w hw => ⟨(lw_words s w hw).1, lows_alnum (lw_words s) w hw⟩
  exact ⟨this.1, this.2, letters_snake s⟩

theorem shape_shouty (s : Name) : Shape (shouty s) s := by
  have := join_chars (uppers (lw_words s))
  rw [← shouty_eq] at this
  exact ⟨this.1, this.2, letters_shouty s⟩

theorem shape_upperCamel (s : Name) : Shape (upperCamel s) s := by
  have := camel_chars (lw_words s)
  rw [← upperCamel_eq] at this
  exact ⟨fun c hc => .inl (this c hc), fun c hc => this c (mem_head hc), letters_upperCamel s⟩

theorem shape_lowerCamel (s : Name) : Shape (lowerCamel s) s := by
  have : ∀ c ∈ lowerCamel s, c.isAlphanum = true := by
    rw [lowerCamel_eq]
    have h := lw_words s
    cases hs : lw s with
    | nil => simp [lowerCamelName]
    | cons w ws =>
      rw [hs] at h
      intro c hc
      rcases List.mem_append.1 hc with hc | hc
      · exact low_alnum ((h w (by simp)).2 c hc)
      · exact camel_chars (fun x hx => h x (by simp [hx])) c hc
  exact ⟨fun c hc => .inl (this c hc), fun c hc => this c (mem_head hc), letters_lowerCamel s⟩

theorem Shape.ident {o s : Name} (h : Shape o s) : Ident o ↔ LetterFirst s := ident_iff h.chars h.head h.letters

theorem Shape.nil {o s : Name} (h : Shape o s) : o = [] ↔ Verif.Gen.NamesSpec.letters s = [] := by
  rw [← h.letters, letters_nil h.head]

theorem idChar_tick {c : Char} (h : IdChar c) : c ≠ '`' := by
  rintro rfl
  rcases h with h | h <;> exact absurd h (by decide)

theorem Shape.notQuoted {o s : Name} (h : Shape o s) (ok : Name → Prop) : ¬Quoted ok o := by
  rintro ⟨m, rfl, _⟩
  exact idChar_tick (h.chars '`' (by simp)) rfl

theorem capital_upperCamel {s : Name} (h : LetterFirst s) : Capital (upperCamel s) := by
  obtain ⟨c, r, hl, hc⟩ := (letterFirst_iff s).1 h
  rw [upperCamel_eq]
  rw [← lw_flatten] at hl
  have hw := lw_words s
  cases hs : lw s with
  | nil => simp [hs] at hl
  | cons w ws =>
    rw [hs] at hl hw
    have hn := (hw w (by simp)).1
    cases w with
    | nil => simp at hn
    | cons d w =>
      simp at hl
      rw [← hl.1] at hc
      exact upper_isUpper (by simp [Char.isAlpha, hc])

theorem capital_shouty {s : Name} (h : LetterFirst s) : Capital (shouty s) := by
  obtain ⟨c, r, hl, hc⟩ := (letterFirst_iff s).1 h
  rw [shouty_eq]
  rw [← lw_flatten] at hl
  have hw := lw_words s
  cases hs : lw s with
  | nil => simp [hs] at hl
  | cons w ws =>
    rw [hs] at hl hw
    have hn := (hw w (by simp)).1
    cases w with
    | nil => simp at hn
    | cons d w =>
      simp at hl
      rw [← hl.1] at hc
      rw [List.map_cons, join_cons]
      exact upper_isUpper (by simp [Char.isAlpha, hc])

theorem small_snake {s : Name} (h : LetterFirst s) : Small (snake s) := by
  obtain ⟨c, r, hl, hc⟩ := (letterFirst_iff s).1 h
  rw [snake_eq]
  rw [← lw_flatten] at hl
  have hw := lw_words s
  cases hs : lw s with
  | nil => simp [hs] at hl
  | cons w ws =>
    rw [hs] at hl hw
    have hn := (hw w (by simp)).1
    cases w with
    | nil => simp at hn
    | cons d w =>
      simp at hl
      rw [← hl.1] at hc
      rw [join_cons]
      exact .inl hc

/-! ## Keywords -/

/-- In a list of keywords, those that begin with a letter or digit begin with a letter. -/
theorem ident_of_mem {ks : List Name} {o s : Name} (h : Shape o s)
    (hk : ∀ k ∈ ks, (∀ c ∈ k.head?, c.isAlphanum = true) → k.head?.any Char.isAlpha = true) (ho : o ∈ ks) :
    Ident o := by
  have := hk o ho h.head
  cases o with
  | nil => simp at this
  | cons c o => exact ⟨.inl (by simpa using this), fun d hd => h.chars d (by simp [hd])⟩

theorem ident_underscore {o s : Name} (h : Shape o s) : Ident ('_' :: o) := ⟨.inr rfl, h.chars⟩

theorem py_legal {o s : Name} (h : Shape o s) (p : Place) : Legal .python p (pyFix o) ↔ LetterFirst s := by
  have hsub : ∀ k ∈ pyReserved, k ∈ pyKeywords := by decide +kernel
  unfold pyFix
  split
  · rename_i hk
    have hi := ident_of_mem h (ks := pyKeywords) (by decide +kernel) hk
    refine ⟨fun _ => h.ident.1 hi, fun _ => ⟨ident_underscore h, ?_⟩⟩
    have : ∀ k ∈ pyKeywords, '_' :: k ∉ pyReserved := by decide +kernel
    exact this o hk
  · rename_i hk
    exact ⟨fun hl => h.ident.1 hl.1, fun hl => ⟨h.ident.2 hl, fun hm => hk (hsub o hm)⟩⟩

theorem tick_inj {a b : Name} (h : '`' :: a ++ ['`'] = '`' :: b ++ ['`']) : a = b := by
  simpa using h

theorem tick_kt {o : Name} (h : ∀ c ∈ o, IdChar c) :
    (Ident (tick o) ∧ tick o ∉ ktReserved ∨ Quoted (fun m => m ≠ [] ∧ ∀ c ∈ m, IdChar c) (tick o)) ↔ o ≠ [] := by
  constructor
  · rintro (⟨hi, _⟩ | ⟨m, hm, hn, _⟩)
    · exact absurd hi.1 (by decide)
    · rw [tick_inj hm]; exact hn
  · exact fun hn => .inr ⟨o, rfl, hn, h⟩

theorem sw_quote {o s : Name} (h : Shape o s) (ks rs : List Name) (hsub : ∀ k ∈ rs, k ∈ ks)
    (hk : ∀ k ∈ ks, (∀ c ∈ k.head?, c.isAlphanum = true) → k.head?.any Char.isAlpha = true) :
    (Ident (if o ∈ ks then tick o else o) ∧ (if o ∈ ks then tick o else o) ∉ rs ∨
      Quoted Ident (if o ∈ ks then tick o else o)) ↔ LetterFirst s := by
  split
  · rename_i hm
    have hi := ident_of_mem h hk hm
    exact ⟨fun _ => h.ident.1 hi, fun _ => .inr ⟨o, rfl, hi⟩⟩
  · rename_i hm
    constructor
    · rintro (⟨hi, _⟩ | hq)
      · exact h.ident.1 hi
      · exact absurd hq (h.notQuoted _)
    · exact fun hl => .inl ⟨h.ident.2 hl, fun hr => hm (hsub o hr)⟩

theorem stripSuffix_eq {x n m : Name} (h : stripSuffix x n = some m) : n = m ++ x := by
  unfold stripSuffix at h
  split at h
  · rename_i hs
    simp only [Option.some.injEq] at h
    obtain ⟨y, rfl⟩ := hs
    simp at h
    rw [← h]
  · simp at h

/-- The names that `errorSuffix` changes end in `Error`. -/
theorem errorSuffix_cases (o : Name) : errorSuffix o = o ∧ ¬"Error".toList <:+ o ∨
    ∃ x, o = x ++ "Error".toList ∧ errorSuffix o = x ++ "Exception".toList := by
  unfold errorSuffix
  cases h : stripSuffix "Error".toList o with
  | none =>
    refine .inl ⟨rfl, ?_⟩
    unfold stripSuffix at h
    split at h
    · simp at h
    · assumption
  | some x => exact .inr ⟨x, stripSuffix_eq h, rfl⟩

theorem errorSuffix_shape {o : Name} (h1 : ∀ c ∈ o, IdChar c) :
    (∀ c ∈ errorSuffix o, IdChar c) ∧ (errorSuffix o).head? = o.head? := by
  rcases errorSuffix_cases o with ⟨h, _⟩ | ⟨x, rfl, h⟩
  · rw [h]; exact ⟨h1, rfl⟩
  · rw [h]
    constructor
    · intro c hc
      rcases List.mem_append.1 hc with hc | hc
      · exact h1 c (by simp [hc])
      · have : ∀ c ∈ "Exception".toList, c.isAlphanum = true := by decide
        exact .inl (this c hc)
    · cases x <;> rfl

theorem ktClass_shape (e : Bool) (s : Name) :
    (∀ c ∈ ktClass e s, IdChar c) ∧ (ktClass e s).head? = (upperCamel s).head? := by
  unfold ktClass
  split
  · exact errorSuffix_shape (shape_upperCamel s).chars
  · exact ⟨(shape_upperCamel s).chars, rfl⟩

theorem kt_plain {n o s : Name} (h1 : ∀ c ∈ n, IdChar c) (h2 : n.head? = o.head?) (h : Shape o s)
    (hc : LetterFirst s → Capital o) :
    (Ident n ∧ n ∉ ktReserved ∨ Quoted (fun m => m ≠ [] ∧ ∀ c ∈ m, IdChar c) n) ↔ LetterFirst s := by
  have hi : Ident n ↔ Ident o := by
    match n, o with
    | [], [] => rfl
    | [], _ :: _ => simp at h2
    | _ :: _, [] => simp at h2
    | c :: n, d :: o =>
      simp at h2; subst h2
      exact ⟨fun hh => ⟨hh.1, fun x hx => h.chars x (by simp [hx])⟩,
        fun hh => ⟨hh.1, fun x hx => h1 x (by simp [hx])⟩⟩
  constructor
  · rintro (⟨hh, _⟩ | ⟨m, rfl, _⟩)
    · exact h.ident.1 (hi.1 hh)
    · exact absurd rfl (idChar_tick (h1 '`' (by simp)))
  · intro hl
    refine .inl ⟨hi.2 (h.ident.2 hl), fun hm => ?_⟩
    have hcap := hc hl
    have hk : ∀ k ∈ ktReserved, k.head?.any Char.isUpper = false := by decide +kernel
    have := hk n hm
    cases o with
    | nil => exact hcap
    | cons d o =>
      rw [h2] at this
      simp at this
      have hcap : d.isUpper = true := hcap
      rw [this] at hcap; simp at hcap

/-! ## Legal names -/

/-- The names that become legal. -/
def Accepted : Lang → Place → Name → Prop
  | .kotlinJni, _, s => letters s ≠ []
  | .kotlin, .func, s | .kotlin, .var, s | .kotlin, .label, s => letters s ≠ []
  | .swift, .type, s => LetterFirst s ∧ upperCamel s ≠ "Any".toList ∧ upperCamel s ≠ "Self".toList
  | .ruby, .var, s | .ruby, .label, s => LetterFirst s ∧ snake s ≠ "in".toList
  | _, _, s => LetterFirst s

/-- **Exactly these names become legal.** -/
theorem C83_legal_iff (l : Lang) (e : Bool) (p : Place) (s : Name) :
    Legal l p (gen l e p s) ↔ Accepted l p s := by
  cases l with
  | python =>
    cases p <;> simp only [gen, python, Accepted] <;>
      first
      | exact py_legal (shape_snake s) _
      | exact py_legal (shape_upperCamel s) _
      | exact py_legal (shape_shouty s) _
  | kotlin =>
    have h1 := tick_kt (shape_lowerCamel s).chars
    rw [ne_eq, (shape_lowerCamel s).nil] at h1
    cases p <;> simp only [gen, kotlin, Accepted]
    · exact h1
    · exact h1
    · exact h1
    · exact kt_plain (ktClass_shape e s).1 (ktClass_shape e s).2 (shape_upperCamel s) capital_upperCamel
    · exact kt_plain (shape_shouty s).chars rfl (shape_shouty s) capital_shouty
    · exact kt_plain (ktClass_shape e s).1 (ktClass_shape e s).2 (shape_upperCamel s) capital_upperCamel
    · exact kt_plain (ktClass_shape true s).1 (ktClass_shape true s).2 (shape_upperCamel s) capital_upperCamel
  | kotlinJni =>
    have hc : ktClass e s = [] ↔ letters s = [] := by
      rw [← (shape_upperCamel s).nil]
      have := (ktClass_shape e s).2
      constructor
      · intro h; rw [h] at this; cases hu : upperCamel s <;> simp [hu] at this ⊢
      · intro h; rw [h] at this; cases hu : ktClass e s <;> simp [hu] at this ⊢
    cases p <;> simp only [gen, jni, Accepted]
    · have := tick_kt (shape_lowerCamel s).chars; rwa [ne_eq, (shape_lowerCamel s).nil] at this
    · have := tick_kt (shape_lowerCamel s).chars; rwa [ne_eq, (shape_lowerCamel s).nil] at this
    · have := tick_kt (shape_lowerCamel s).chars; rwa [ne_eq, (shape_lowerCamel s).nil] at this
    · have := tick_kt (ktClass_shape e s).1; rwa [ne_eq, hc] at this
    · have := tick_kt (shape_shouty s).chars; rwa [ne_eq, (shape_shouty s).nil] at this
    · have := tick_kt (ktClass_shape e s).1; rwa [ne_eq, hc] at this
    · have := tick_kt (ktClass_shape e s).1; rwa [ne_eq, hc] at this
  | swift =>
    have hsub : ∀ k ∈ swiftReserved, k ∈ swiftKeywords := by decide +kernel
    have hk : ∀ k ∈ swiftKeywords, (∀ c ∈ k.head?, c.isAlphanum = true) → k.head?.any Char.isAlpha = true := by
      decide +kernel
    cases p <;> simp only [gen, swift, Accepted]
    · exact sw_quote (shape_lowerCamel s) _ _ hsub hk
    · exact sw_quote (shape_lowerCamel s) _ _ hsub hk
    · exact sw_quote (shape_lowerCamel s) _ _ (fun _ h => h) (by decide +kernel)
    · have hs := shape_upperCamel s
      constructor
      · rintro (⟨hi, hn⟩ | hq)
        · refine ⟨hs.ident.1 hi, ?_, ?_⟩ <;> intro h <;> rw [h] at hn <;> exact hn (by decide +kernel)
        · exact absurd hq (hs.notQuoted _)
      · rintro ⟨hl, h1, h2⟩
        refine .inl ⟨hs.ident.2 hl, fun hm => ?_⟩
        have hcap := capital_upperCamel hl
        have hcaps : ∀ k ∈ swiftReserved, k = "Any".toList ∨ k = "Self".toList ∨
            k.head?.any Char.isUpper = false := by decide +kernel
        rcases hcaps _ hm with h | h | h
        · exact h1 h
        · exact h2 h
        · cases hu : upperCamel s with
          | nil => rw [hu] at hcap; exact hcap
          | cons c r =>
            rw [hu] at hcap h
            simp at h
            have hcap : c.isUpper = true := hcap
            rw [h] at hcap; simp at hcap
    · exact sw_quote (shape_lowerCamel s) _ _ hsub hk
    · exact sw_quote (shape_lowerCamel s) _ _ hsub hk
    · exact sw_quote (shape_upperCamel s) _ _ hsub hk
  | ruby =>
    have hv : (Ident (if snake s ∈ rubyReserved then '_' :: snake s else snake s) ∧
        Small (if snake s ∈ rubyReserved then '_' :: snake s else snake s) ∧
        (if snake s ∈ rubyReserved then '_' :: snake s else snake s) ∉ rbReserved) ↔
        LetterFirst s ∧ snake s ≠ "in".toList := by
      have hs := shape_snake s
      split
      · rename_i hm
        have hi := ident_of_mem hs (ks := rubyReserved) (by decide +kernel) hm
        have h1 : ∀ k ∈ rubyReserved, '_' :: k ∉ rbReserved ∧ k ≠ "in".toList := by decide +kernel
        exact ⟨fun _ => ⟨hs.ident.1 hi, (h1 _ hm).2⟩, fun _ => ⟨ident_underscore hs, .inr rfl, (h1 _ hm).1⟩⟩
      · rename_i hm
        have h1 : ∀ k ∈ rbReserved, k ∈ rubyReserved ∨ k = "in".toList ∨ k.head? = some '_' := by decide +kernel
        constructor
        · rintro ⟨hi, _, hn⟩
          refine ⟨hs.ident.1 hi, fun h => ?_⟩
          rw [h] at hn
          exact hn (by decide +kernel)
        · rintro ⟨hl, hin⟩
          refine ⟨hs.ident.2 hl, small_snake hl, fun hr => ?_⟩
          rcases h1 _ hr with h | h | h
          · exact hm h
          · exact hin h
          · exact absurd (hs.head '_' (by simp [h])) (by decide)
    cases p <;> simp only [gen, ruby, Accepted]
    · exact (shape_snake s).ident
    · exact hv
    · exact hv
    · exact ⟨fun h => (shape_upperCamel s).ident.1 h.1, fun h => ⟨(shape_upperCamel s).ident.2 h, capital_upperCamel h⟩⟩
    · exact ⟨fun h => (shape_shouty s).ident.1 h.1, fun h => ⟨(shape_shouty s).ident.2 h, capital_shouty h⟩⟩
    · exact ⟨fun h => (shape_shouty s).ident.1 h.1, fun h => ⟨(shape_shouty s).ident.2 h, capital_shouty h⟩⟩
    · exact ⟨fun h => (shape_upperCamel s).ident.1 h.1, fun h => ⟨(shape_upperCamel s).ident.2 h, capital_upperCamel h⟩⟩

/-- **Names that begin with a letter become legal names**, keyword or not, except for the types that Swift
reserves and for `in` in Ruby. -/
theorem C83_legal_partial (l : Lang) (e : Bool) (p : Place) (c : Char) (r : Name) (hc : c.isAlpha = true)
    (hsw : l = .swift → p = .type → upperCamel (c :: r) ≠ "Any".toList ∧ upperCamel (c :: r) ≠ "Self".toList)
    (hrb : l = .ruby → p = .var ∨ p = .label → snake (c :: r) ≠ "in".toList) :
    Legal l p (gen l e p (c :: r)) := by
  rw [C83_legal_iff]
  have ha : c.isAlphanum = true := by simp [Char.isAlphanum, hc]
  have hl : LetterFirst (c :: r) := by
    unfold LetterFirst; rw [List.filter_cons_of_pos ha]; exact hc
  have hn : letters (c :: r) ≠ [] := by
    unfold letters; rw [List.filter_cons_of_pos ha]; simp
  cases l <;> cases p <;> simp only [Accepted] <;> first
    | exact hl
    | exact hn
    | exact ⟨hl, hsw rfl rfl⟩
    | exact ⟨hl, hrb rfl (by simp)⟩

-- a keyword in every language
example (l : Lang) (p : Place) : Legal l p (gen l false p "class".toList) := by
  have h1 : upperCamel "class".toList ≠ "Any".toList ∧ upperCamel "class".toList ≠ "Self".toList := by
    decide +kernel
  have h2 : snake "class".toList ≠ "in".toList := by decide +kernel
  exact C83_legal_partial l false p 'c' "lass".toList (by decide) (fun _ _ => h1) (fun _ _ => h2)

example : gen .python false .var "class".toList = "_class".toList ∧
    gen .kotlin false .var "class".toList = "`class`".toList ∧
    gen .swift false .var "class".toList = "`class`".toList ∧
    gen .ruby false .var "class".toList = "_class".toList := by decide +kernel

theorem letterFirst_letters {s : Name} (h : LetterFirst s) : letters s ≠ [] := by
  obtain ⟨c, r, h, _⟩ := (letterFirst_iff s).1 h
  simp [h]

/-- Names whose first letter or digit is a digit are no names in Python, Swift and Ruby. -/
theorem C83_digit_broken : ¬Legal .python .var (gen .python false .var "_1".toList) ∧
    ¬Legal .swift .var (gen .swift false .var "_1".toList) ∧
    ¬Legal .ruby .var (gen .ruby false .var "_1".toList) := by
  have h : ¬LetterFirst "_1".toList := by
    rw [letterFirst_iff, show letters "_1".toList = ['1'] by decide +kernel]
    rintro ⟨c, r, h, hc⟩
    simp at h
    rw [← h.1] at hc
    exact absurd hc (by decide)
  refine ⟨?_, ?_, ?_⟩ <;> rw [C83_legal_iff]
  · exact h
  · exact h
  · exact fun hh => h hh.1

/-- Names without letters and digits become the empty name. -/
theorem C83_underscores_broken (l : Lang) (p : Place) : ¬Legal l p (gen l false p "__".toList) := by
  rw [C83_legal_iff]
  have h : letters "__".toList = [] := by decide +kernel
  intro ha
  cases l <;> cases p <;> simp only [Accepted] at ha <;> first
    | exact ha h
    | exact letterFirst_letters ha h
    | exact letterFirst_letters ha.1 h

/-- `in_` becomes `in` in Ruby, which is a keyword there. -/
theorem C83_ruby_in_broken : gen .ruby false .var "in_".toList = "in".toList ∧
    ¬Legal .ruby .var (gen .ruby false .var "in_".toList) := by
  refine ⟨by decide +kernel, ?_⟩
  rw [C83_legal_iff]; exact fun h => h.2 (by decide +kernel)

/-- A type called `Any` is not quoted in Swift. -/
theorem C83_swift_any_broken : gen .swift false .type "Any".toList = "Any".toList ∧
    ¬Legal .swift .type (gen .swift false .type "Any".toList) := by
  refine ⟨by decide +kernel, ?_⟩
  rw [C83_legal_iff]; exact fun h => h.2.1 (by decide +kernel)

/-- The variable that Swift uses for borrowed bytes is a name unless the argument is a keyword. -/
theorem C83_swift_bytes_partial (n : Name) (hn : LetterFirst n) :
    Legal .swift .var (swiftBytes n) ↔ lowerCamel n ∉ swiftKeywords := by
  have hs := shape_lowerCamel n
  have hfb : ∀ k ∈ swiftReserved, ¬"Fb".toList <:+ k := by decide +kernel
  simp only [swiftBytes, swift, swiftQuote]
  split
  · rename_i hm
    constructor
    · rintro (⟨hi, _⟩ | ⟨m, h, _⟩)
      · exact absurd hi.1 (by decide)
      · have := congrArg (fun l => l.reverse.head?) h
        simp [tick] at this
    · exact fun h => absurd hm h
  · rename_i hm
    refine ⟨fun _ => hm, fun _ => .inl ⟨?_, fun h => hfb _ h ⟨_, rfl⟩⟩⟩
    have hi := hs.ident.2 hn
    cases h : lowerCamel n with
    | nil => rw [h] at hi; exact absurd hi (by simp [Ident])
    | cons c r =>
      rw [h] at hi
      refine ⟨hi.1, fun d hd => ?_⟩
      rcases List.mem_append.1 hd with hd | hd
      · exact hi.2 d hd
      · have : ∀ d ∈ "Fb".toList, d.isAlphanum = true := by decide
        exact .inl (this d hd)

/-- Borrowed bytes in an argument called `default` give a Swift that does not parse. -/
theorem C83_swift_bytes_broken : swiftBytes "default".toList = "`default`Fb".toList ∧
    ¬Legal .swift .var (swiftBytes "default".toList) := by
  refine ⟨by decide +kernel, ?_⟩
  rw [C83_swift_bytes_partial _ (by
    rw [letterFirst_iff, show letters "default".toList = "default".toList by decide +kernel]
    exact ⟨'d', "efault".toList, by decide +kernel, by decide⟩)]
  exact fun h => h (by decide +kernel)

/-! ## Names stay apart -/

/-- The places whose names are joined without a separator. -/
def Camel : Lang → Place → Bool
  | .python, .func | .python, .var | .python, .label | .python, .flatVariant | .python, .dataVariant => false
  | .kotlin, .flatVariant | .kotlinJni, .flatVariant => false
  | .ruby, .func | .ruby, .var | .ruby, .label | .ruby, .flatVariant | .ruby, .dataVariant => false
  | _, _ => true

theorem pyFix_inj {a b s t : Name} (ha : Shape a s) (hb : Shape b t) : pyFix a = pyFix b ↔ a = b := by
  refine ⟨fun h => ?_, fun h => h ▸ rfl⟩
  have hu : ∀ {x y z : Name}, Shape y z → '_' :: x ≠ y := by
    rintro x y z hy rfl
    exact absurd (hy.head '_' (by simp)) (by decide)
  unfold pyFix at h
  split at h <;> split at h
  · simpa using h
  · exact absurd h (hu hb)
  · exact absurd h.symm (hu ha)
  · exact h

theorem rbFix_inj {a b s t : Name} (ha : Shape a s) (hb : Shape b t) :
    (if a ∈ rubyReserved then '_' :: a else a) = (if b ∈ rubyReserved then '_' :: b else b) ↔ a = b := by
  refine ⟨fun h => ?_, fun h => h ▸ rfl⟩
  have hu : ∀ {x y z : Name}, Shape y z → '_' :: x ≠ y := by
    rintro x y z hy rfl
    exact absurd (hy.head '_' (by simp)) (by decide)
  split at h <;> split at h
  · simpa using h
  · exact absurd h (hu hb)
  · exact absurd h.symm (hu ha)
  · exact h

theorem quote_inj {a b s t : Name} (ks : List Name) (ha : Shape a s) (hb : Shape b t) :
    (if a ∈ ks then tick a else a) = (if b ∈ ks then tick b else b) ↔ a = b := by
  refine ⟨fun h => ?_, fun h => h ▸ rfl⟩
  have hu : ∀ {x y z : Name}, Shape y z → tick x ≠ y := by
    rintro x y z hy rfl
    exact absurd rfl (idChar_tick (hy.chars '`' (by simp [tick])))
  split at h <;> split at h
  · exact tick_inj h
  · exact absurd h (hu hb)
  · exact absurd h.symm (hu ha)
  · exact h

theorem tick_iff {a b : Name} : tick a = tick b ↔ a = b := ⟨tick_inj, fun h => h ▸ rfl⟩

/-- **Two names become one exactly if they have the same words**, where a word that begins with a digit is
part of the word before it if names are joined without a separator. -/
theorem C83_same_iff (l : Lang) (p : Place) (hk : l = .kotlin → p ≠ .errorVariant) (s t : Name) :
    gen l false p s = gen l false p t ↔
      if Camel l p then merge (lw s) = merge (lw t) else lw s = lw t := by
  have h1 := snake_iff (s := s) (t := t)
  have h2 := shouty_iff (s := s) (t := t)
  have h3 := upperCamel_iff (s := s) (t := t)
  have h4 := lowerCamel_iff (s := s) (t := t)
  have hk1 : ktClass false s = upperCamel s := rfl
  have hk2 : ktClass false t = upperCamel t := rfl
  cases l <;> cases p <;>
    simp only [gen, python, kotlin, swift, ruby, jni, swiftQuote, swiftQuoteArg, tick_iff, Camel, hk1, hk2,
      pyFix_inj (shape_snake s) (shape_snake t), pyFix_inj (shape_shouty s) (shape_shouty t),
      pyFix_inj (shape_upperCamel s) (shape_upperCamel t), rbFix_inj (shape_snake s) (shape_snake t),
      quote_inj _ (shape_lowerCamel s) (shape_lowerCamel t),
      quote_inj _ (shape_upperCamel s) (shape_upperCamel t), h1, h2, h3, h4, if_true, if_false,
      Bool.false_eq_true]
  exact absurd rfl (hk rfl)

theorem merge_flatten (ws : List Name) : (merge ws).flatten = ws.flatten := by
  induction ws with
  | nil => rfl
  | cons w ws ih =>
    rw [List.flatten_cons, ← ih, merge]
    cases merge ws with
    | nil => simp
    | cons v vs => simp only; split <;> simp

/-- **Names that differ in more than case and underscores stay apart.** -/
theorem C83_apart_partial (l : Lang) (p : Place) (hk : l = .kotlin → p ≠ .errorVariant) (s t : Name)
    (h : gen l false p s = gen l false p t) : letters s = letters t := by
  rw [C83_same_iff l p hk] at h
  split at h
  · rw [← lw_flatten, ← lw_flatten, ← merge_flatten, h, merge_flatten]
  · rw [← lw_flatten, ← lw_flatten, h]

/-- In Kotlin, errors may also take each other's names by their suffixes. -/
theorem C83_kotlin_errors (a b : Name) : errorSuffix a = errorSuffix b ↔ a = b ∨
    ∃ x, a = x ++ "Error".toList ∧ b = x ++ "Exception".toList ∨
      a = x ++ "Exception".toList ∧ b = x ++ "Error".toList := by
  have hex : ∀ x : Name, ¬"Error".toList <:+ x ++ "Exception".toList := by
    intro x h
    have := (List.suffix_or_suffix_of_suffix h (List.suffix_append x "Exception".toList)).resolve_right (by
      intro h; exact absurd h.length_le (by decide))
    revert this; decide
  have herr : ∀ x : Name, errorSuffix (x ++ "Error".toList) = x ++ "Exception".toList := by
    intro x
    rcases errorSuffix_cases (x ++ "Error".toList) with ⟨_, h⟩ | ⟨y, hy, h⟩
    · exact absurd (List.suffix_append x _) h
    · rw [h, List.append_cancel_right hy]
  have hexc : ∀ x : Name, errorSuffix (x ++ "Exception".toList) = x ++ "Exception".toList := by
    intro x
    rcases errorSuffix_cases (x ++ "Exception".toList) with ⟨h, _⟩ | ⟨y, hy, _⟩
    · exact h
    · exact absurd (hy ▸ List.suffix_append y _) (hex x)
  constructor
  · intro h
    rcases errorSuffix_cases a with ⟨h1, _⟩ | ⟨x, rfl, h1⟩ <;>
      rcases errorSuffix_cases b with ⟨h2, _⟩ | ⟨y, rfl, h2⟩ <;> rw [h1, h2] at h
    · exact .inl h
    · exact .inr ⟨y, .inr ⟨h, rfl⟩⟩
    · exact .inr ⟨x, .inl ⟨rfl, h.symm⟩⟩
    · exact .inl (by rw [List.append_cancel_right h])
  · rintro (rfl | ⟨x, ⟨rfl, rfl⟩ | ⟨rfl, rfl⟩⟩)
    · rfl
    · rw [herr, hexc]
    · rw [herr, hexc]

/-- The errors `FooError` and `FooException` are one class in Kotlin. -/
theorem C83_kotlin_errors_broken :
    gen .kotlin true .type "FooError".toList = gen .kotlin true .type "FooException".toList ∧
    gen .kotlinJni true .type "FooError".toList = gen .kotlinJni true .type "FooException".toList := by
  decide +kernel

/-- Two functions of Rust that become one. -/
theorem C83_apart_broken :
    gen .kotlin false .func "foo_1".toList = gen .kotlin false .func "foo1".toList ∧
    gen .swift false .func "foo_1".toList = gen .swift false .func "foo1".toList ∧
    (∀ l, gen l false .func "_foo".toList = gen l false .func "foo".toList) ∧
    (∀ l, gen l false .type "HTTPServer".toList = gen l false .type "HttpServer".toList) := by
  refine ⟨by decide +kernel, by decide +kernel, ?_, ?_⟩ <;> intro l <;> cases l <;> decide +kernel

/-- **Names in the style of Rust stay apart**: functions, arguments and fields. -/
theorem C83_usual_snake (l : Lang) (p : Place) (hk : l = .kotlin → p ≠ .errorVariant) (ws vs : List Name)
    (hw : ∀ w ∈ ws, Word w) (hv : ∀ w ∈ vs, Word w) :
    gen l false p (snakeName ws) = gen l false p (snakeName vs) ↔ ws = vs := by
  rw [C83_same_iff l p hk, lw_snakeName hw, lw_snakeName hv,
    merge_letters fun w h => word_digit (hw w h), merge_letters fun w h => word_digit (hv w h), ite_self]

/-- **Names in the style of Rust stay apart**: types and variants, if no word is a single letter. -/
theorem C83_usual_camel (l : Lang) (p : Place) (hk : l = .kotlin → p ≠ .errorVariant) (ws vs : List Name)
    (hw : ∀ w ∈ ws, LongWord w) (hv : ∀ w ∈ vs, LongWord w) :
    gen l false p (camelName ws) = gen l false p (camelName vs) ↔ ws = vs := by
  rw [C83_same_iff l p hk, lw_camelName hw, lw_camelName hv,
    merge_letters fun w h => word_digit (hw w h).1, merge_letters fun w h => word_digit (hv w h).1, ite_self]

theorem marked_pyFix (n : Name) : Marked (pyFix n) n := by
  unfold pyFix; split
  · exact .inr (.inl rfl)
  · exact .inl rfl

theorem marked_rb (n : Name) : Marked (if n ∈ rubyReserved then '_' :: n else n) n := by
  split
  · exact .inr (.inl rfl)
  · exact .inl rfl

theorem marked_sw (ks : List Name) (n : Name) : Marked (if n ∈ ks then tick n else n) n := by
  split
  · exact .inr (.inr rfl)
  · exact .inl rfl

theorem marked_gen (l : Lang) (p : Place) (hk : l = .kotlin → p ≠ .errorVariant) (s : Name) :
    Marked (gen l false p s) (style l p (lw s)) := by
  have h1 : snakeName (lw s) = snake s := by rw [snakeName_join, snake_eq]
  have h2 : snakeName ((lw s).map (·.map Char.toUpper)) = shouty s := by rw [snakeName_join, shouty_eq]; rfl
  have h3 := (upperCamel_eq s).symm
  have h4 : smallCamelName (lw s) = lowerCamel s := by
    rw [lowerCamel_eq]; cases lw s <;> rfl
  cases l <;> cases p <;> simp only [style, h1, h2, h3, h4, gen, python, kotlin, swift, ruby, jni] <;> first
    | exact marked_pyFix _
    | exact .inl rfl
    | exact .inr (.inr rfl)
    | exact marked_rb _
    | exact marked_sw _ _
    | exact absurd rfl (hk rfl)

/-- **Names in the style of Rust are written in the style of the language.** -/
theorem C83_style (l : Lang) (p : Place) (hk : l = .kotlin → p ≠ .errorVariant) (ws : List Name) :
    ((∀ w ∈ ws, Word w) → Marked (gen l false p (snakeName ws)) (style l p ws)) ∧
    ((∀ w ∈ ws, LongWord w) → Marked (gen l false p (camelName ws)) (style l p ws)) := by
  refine ⟨fun h => ?_, fun h => ?_⟩
  · have := marked_gen l p hk (snakeName ws); rwa [lw_snakeName h] at this
  · have := marked_gen l p hk (camelName ws); rwa [lw_camelName h] at this

/-- Errors of Kotlin end in `Exception` instead of `Error`. -/
theorem C83_style_errors (ws : List Name) (h : ∀ w ∈ ws, LongWord w) :
    gen .kotlin true .type (camelName ws ++ "Error".toList) = camelName ws ++ "Exception".toList ∧
    gen .kotlin false .errorVariant (camelName ws ++ "Error".toList) = camelName ws ++ "Exception".toList ∧
    gen .kotlinJni true .type (camelName ws ++ "Error".toList) = tick (camelName ws ++ "Exception".toList) := by
  have h1 : camelName ws ++ "Error".toList = camelName (ws ++ ["error".toList]) := by
    simp only [camelName, List.map_append, List.flatten_append, List.append_cancel_left_eq]
    decide +kernel
  have h2 : ∀ w ∈ ws ++ ["error".toList], LongWord w := by
    intro w hw
    simp only [List.mem_append, List.mem_cons, List.not_mem_nil, or_false] at hw
    rcases hw with hw | rfl
    · exact h w hw
    · exact ⟨⟨by decide, by decide +kernel⟩, 'r', by decide +kernel, by decide⟩
  have h3 : upperCamel (camelName ws ++ "Error".toList) = camelName ws ++ "Error".toList := by
    rw [h1, upperCamel_eq, lw_camelName h2]
  have h4 : errorSuffix (camelName ws ++ "Error".toList) = camelName ws ++ "Exception".toList := by
    rcases errorSuffix_cases (camelName ws ++ "Error".toList) with ⟨_, hh⟩ | ⟨y, hy, hh⟩
    · exact absurd (List.suffix_append _ _) hh
    · rw [hh, List.append_cancel_right hy]
  simp only [gen, kotlin, jni, ktClass, if_true, h3, h4, and_self]

/-- **Names in the style of Rust are what a user of the language expects**: words are not split, joined or
moved. -/
theorem C83_spelling (w : Name) (ws : List Name) (hw : ∀ v ∈ w :: ws, Word v) :
    snake (snakeName (w :: ws)) = snakeName (w :: ws) ∧
    lowerCamel (snakeName (w :: ws)) = w ++ camelName ws ∧
    upperCamel (snakeName (w :: ws)) = camelName (w :: ws) := by
  rw [snake_eq, lowerCamel_eq, upperCamel_eq, lw_snakeName hw, snakeName_join]
  exact ⟨rfl, rfl, rfl⟩

/-- Types keep their names and become the words of other names. -/
theorem C83_spelling_types (ws : List Name) (hw : ∀ v ∈ ws, LongWord v) :
    upperCamel (camelName ws) = camelName ws ∧ snake (camelName ws) = snakeName ws ∧
    shouty (camelName ws) = snakeName (ws.map (·.map Char.toUpper)) := by
  rw [snake_eq, shouty_eq, upperCamel_eq, lw_camelName hw, snakeName_join, snakeName_join]
  exact ⟨rfl, rfl, rfl⟩

-- `read_http2_frame` and `FrameReader`
example : (∀ w ∈ ["read".toList, "http2".toList, "frame".toList], Word w) ∧
    snakeName ["read".toList, "http2".toList, "frame".toList] = "read_http2_frame".toList ∧
    gen .swift false .func "read_http2_frame".toList = "readHttp2Frame".toList := by
  refine ⟨?_, by decide +kernel, by decide +kernel⟩
  intro w hw
  simp only [List.mem_cons, List.not_mem_nil, or_false] at hw
  rcases hw with rfl | rfl | rfl
  · exact ⟨by decide, by decide +kernel⟩
  · exact ⟨by decide, by decide +kernel⟩
  · exact ⟨by decide, by decide +kernel⟩

example : (∀ w ∈ ["frame".toList, "reader".toList], LongWord w) ∧
    camelName ["frame".toList, "reader".toList] = "FrameReader".toList := by
  refine ⟨?_, by decide +kernel⟩
  intro w hw
  simp only [List.mem_cons, List.not_mem_nil, or_false] at hw
  rcases hw with rfl | rfl
  · exact ⟨⟨by decide, by decide +kernel⟩, 'r', by decide +kernel, by decide⟩
  · exact ⟨⟨by decide, by decide +kernel⟩, 'e', by decide +kernel, by decide⟩

/-- **The parameters of a Python method are different** exactly if the arguments are and none is `self`
once converted. -/
theorem C83_python_params_partial (args : List Name) :
    (pyParams args).Nodup ↔ (args.map snake).Nodup ∧ ∀ a ∈ args, snake a ≠ "self".toList := by
  have hself : pyFix "self".toList = "self".toList := by decide +kernel
  have hsh : Shape "self".toList "self".toList := by
    have := shape_snake "self".toList
    rwa [show snake "self".toList = "self".toList by decide +kernel] at this
  have h1 : "self".toList ∉ args.map (python .var) ↔ ∀ a ∈ args, snake a ≠ "self".toList := by
    simp only [List.mem_map, not_exists, not_and]
    refine forall_congr' fun a => imp_congr_right fun _ => not_congr ?_
    rw [python, ← hself, pyFix_inj (shape_snake a) hsh, hself]
  have h2 : (args.map (python .var)).Nodup ↔ (args.map snake).Nodup := by
    unfold List.Nodup
    rw [List.pairwise_map, List.pairwise_map]
    refine ⟨fun h => h.imp fun {a b} hab hs => hab ?_, fun h => h.imp fun {a b} hab hs => hab ?_⟩
    · exact (pyFix_inj (shape_snake a) (shape_snake b)).2 hs
    · exact (pyFix_inj (shape_snake a) (shape_snake b)).1 hs
  rw [pyParams, List.nodup_cons, h1, h2, and_comm]

example : (pyParams ["class".toList, "count".toList]).Nodup := by decide +kernel

/-- A method with an argument `self_` has two parameters called `self` in Python. -/
theorem C83_python_self_broken : ¬(pyParams ["self_".toList]).Nodup := by decide +kernel

/-! ## Native functions -/

/-- The type a function belongs to. -/
def owner : Kind → List Name
  | .function => []
  | .method self | .constructor self => lw self

def sameKind : Kind → Kind → Prop
  | .function, .function | .method _, .method _ | .constructor _, .constructor _ => True
  | _, _ => False

theorem camel_append (ws vs : List Name) : camelName (ws ++ vs) = camelName ws ++ camelName vs := by
  simp [camelName]

theorem words_append {ws vs : List Name} (h : Words ws) (h' : Words vs) : Words (ws ++ vs) := by
  intro w hw
  rcases List.mem_append.1 hw with hw | hw
  · exact h w hw
  · exact h' w hw

theorem owner_words (k : Kind) : Words (owner k) := by
  cases k
  · intro w h; simp [owner] at h
  · exact lw_words _
  · exact lw_words _

theorem camelName_iff {ws vs : List Name} (h : Words ws) (h' : Words vs) :
    camelName ws = camelName vs ↔ merge ws = merge vs := by
  rw [← camel_merge h, ← camel_merge h']
  exact ⟨camel_inj (merge_words h) (merge_words h') (merge_merged h) (merge_merged h'), fun h => by rw [h]⟩

theorem jniMethod_eq (c : Name) (k : Kind) (n : Name) :
    jniMethod c k n = k.word.toList ++ camelName (lw c ++ owner k ++ lw n) := by
  have : k.owner = camelName (owner k) := by
    cases k
    · rfl
    · exact upperCamel_eq _
    · exact upperCamel_eq _
  rw [jniMethod, camel_append, camel_append, this, upperCamel_eq, upperCamel_eq]
  simp only [List.append_assoc]

theorem word_head (k k' : Kind) (h : ¬sameKind k k') (x y : Name) : k.word.toList ++ x ≠ k'.word.toList ++ y := by
  have hf : "function".toList = 'f' :: "unction".toList := by decide +kernel
  have hm : "method".toList = 'm' :: "ethod".toList := by decide +kernel
  have hc : "constructor".toList = 'c' :: "onstructor".toList := by decide +kernel
  intro hh
  cases k <;> cases k' <;> first
    | exact absurd trivial h
    | (simp only [Kind.word, hf, hm, hc, List.cons_append] at hh
       exact absurd (List.cons.inj hh).1 (by decide))

theorem word_cancel {k k' : Kind} {x y : Name} :
    k.word.toList ++ x = k'.word.toList ++ y ↔ sameKind k k' ∧ x = y := by
  by_cases h : sameKind k k'
  · have : k.word = k'.word := by
      cases k <;> cases k' <;> first | rfl | exact h.elim
    rw [this, List.append_cancel_left_eq]
    exact ⟨fun hh => ⟨h, hh⟩, fun hh => hh.2⟩
  · exact ⟨fun hh => absurd hh (word_head k k' h x y), fun hh => absurd hh.1 h⟩

/-- **Two functions share a native function exactly if they are of one kind and the words of crate, type and
function, one after the other, are the same.** -/
theorem C83_native_iff (c c' : Name) (k k' : Kind) (n n' : Name) :
    jniMethod c k n = jniMethod c' k' n' ↔ sameKind k k' ∧
      merge (lw c ++ owner k ++ lw n) = merge (lw c' ++ owner k' ++ lw n') := by
  rw [← camelName_iff (words_append (words_append (lw_words _) (owner_words _)) (lw_words _))
    (words_append (words_append (lw_words _) (owner_words _)) (lw_words _)), jniMethod_eq, jniMethod_eq,
    word_cancel]

/-- With names in the style of Rust. -/
theorem C83_native_usual (c c' d d' n n' : List Name) (hc : ∀ w ∈ c, Word w) (hc' : ∀ w ∈ c', Word w)
    (hd : ∀ w ∈ d, LongWord w) (hd' : ∀ w ∈ d', LongWord w) (hn : ∀ w ∈ n, Word w) (hn' : ∀ w ∈ n', Word w) :
    jniMethod (snakeName c) (.method (camelName d)) (snakeName n) =
      jniMethod (snakeName c') (.method (camelName d')) (snakeName n') ↔ c ++ d ++ n = c' ++ d' ++ n' := by
  rw [C83_native_iff]
  simp only [sameKind, owner, true_and]
  rw [lw_snakeName hc, lw_snakeName hc', lw_snakeName hn, lw_snakeName hn', lw_camelName hd, lw_camelName hd',
    merge_letters, merge_letters]
  · intro w hw
    simp only [List.mem_append] at hw
    rcases hw with (hw | hw) | hw
    · exact word_digit (hc' w hw)
    · exact word_digit (hd' w hw).1
    · exact word_digit (hn' w hw)
  · intro w hw
    simp only [List.mem_append] at hw
    rcases hw with (hw | hw) | hw
    · exact word_digit (hc w hw)
    · exact word_digit (hd w hw).1
    · exact word_digit (hn w hw)

/-- **The methods of one type have native functions of their own.** -/
theorem C83_native_partial (c d n n' : List Name) (hc : ∀ w ∈ c, Word w) (hd : ∀ w ∈ d, LongWord w)
    (hn : ∀ w ∈ n, Word w) (hn' : ∀ w ∈ n', Word w) :
    jniMethod (snakeName c) (.method (camelName d)) (snakeName n) =
      jniMethod (snakeName c) (.method (camelName d)) (snakeName n') ↔ n = n' := by
  rw [C83_native_usual c c d d n n' hc hc hd hd hn hn', List.append_cancel_left_eq]

/-- `Foo::bar_baz` and `FooBar::baz` share a native function, as do a function of crate `a_b` and one of
crate `a`. -/
theorem C83_native_broken :
    jniMethod "demo".toList (.method "Foo".toList) "bar_baz".toList =
      jniMethod "demo".toList (.method "FooBar".toList) "baz".toList ∧
    jniMethod "a_b".toList .function "c".toList = jniMethod "a".toList .function "b_c".toList := by
  decide +kernel

end Verif.Props.BindingNames
