import Verif.Gen.NamesSpec

/-! Lemmas about the conversion of case. -/

namespace Verif.Gen.Names

open Verif.Gen.NamesSpec

/-! ## Characters -/

theorem ascii_of {P : Char → Bool} (h : ∀ n : Fin 128, P (Char.ofNat n) = true) (c : Char)
    (hc : c.toNat < 128) : P c = true := by
  have := h ⟨c.toNat, hc⟩
  simpa using this

theorem alnum_small {c : Char} (h : c.isAlphanum = true) : c.toNat < 128 := by
  simp only [Char.isAlphanum, Char.isAlpha, Char.isUpper, Char.isLower, Char.isDigit, Bool.or_eq_true,
    decide_eq_true_eq, Bool.and_eq_true, ge_iff_le, UInt32.le_iff_toNat_le] at h
  have e1 : 'A'.val.toNat = 65 := rfl
  have e2 : 'Z'.val.toNat = 90 := rfl
  have e3 : 'a'.val.toNat = 97 := rfl
  have e4 : 'z'.val.toNat = 122 := rfl
  have e5 : '0'.val.toNat = 48 := rfl
  have e6 : '9'.val.toNat = 57 := rfl
  simp only [Char.toNat] at *
  omega

theorem alnum_ind {P : Char → Bool}
    (h : ∀ n : Fin 128, (!(Char.ofNat n).isAlphanum || P (Char.ofNat n)) = true) {c : Char}
    (hc : c.isAlphanum = true) : P c = true := by
  have := ascii_of (P := fun c => !c.isAlphanum || P c) h c (alnum_small hc)
  simpa [hc] using this

/-- A small letter or a digit. -/
def Low (c : Char) : Prop := c.isLower = true ∨ c.isDigit = true

instance (c : Char) : Decidable (Low c) := inferInstanceAs (Decidable (_ ∨ _))

theorem low_alnum {c : Char} (h : Low c) : c.isAlphanum = true := by
  rcases h with h | h <;> simp [Char.isAlphanum, Char.isAlpha, h]

theorem lower_low {c : Char} (h : c.isAlphanum = true) : Low c.toLower := by
  have := alnum_ind (P := fun c => decide (Low c.toLower)) (by decide +kernel) h
  simpa using this

theorem upper_lower {c : Char} (h : c.isAlphanum = true) : c.toLower.toUpper = c.toUpper := by
  have := alnum_ind (P := fun c => decide (c.toLower.toUpper = c.toUpper)) (by decide +kernel) h
  simpa using this

theorem lower_upper {c : Char} (h : c.isAlphanum = true) : c.toUpper.toLower = c.toLower := by
  have := alnum_ind (P := fun c => decide (c.toUpper.toLower = c.toLower)) (by decide +kernel) h
  simpa using this

theorem lower_of_low {c : Char} (h : Low c) : c.toLower = c := by
  have := alnum_ind (P := fun c => decide (Low c → c.toLower = c)) (by decide +kernel) (low_alnum h)
  exact of_decide_eq_true this h

theorem not_upper_of_low {c : Char} (h : Low c) : c.isUpper = false := by
  have := alnum_ind (P := fun c => decide (Low c → c.isUpper = false)) (by decide +kernel) (low_alnum h)
  exact of_decide_eq_true this h

theorem upper_alnum {c : Char} (h : c.isAlphanum = true) : c.toUpper.isAlphanum = true :=
  alnum_ind (P := fun c => c.toUpper.isAlphanum) (by decide +kernel) h

theorem toUpper_inj {c d : Char} (hc : Low c) (hd : Low d) (h : c.toUpper = d.toUpper) : c = d := by
  rw [← lower_of_low hc, ← lower_of_low hd, ← lower_upper (low_alnum hc), ← lower_upper (low_alnum hd), h]

theorem upper_isUpper {c : Char} (h : c.isAlpha = true) : c.toUpper.isUpper = true := by
  have := alnum_ind (P := fun c => decide (c.isAlpha = true → c.toUpper.isUpper = true)) (by decide +kernel)
    (c := c) (by simp [Char.isAlphanum, h])
  exact of_decide_eq_true this h

theorem lower_isLower {c : Char} (h : c.isAlpha = true) : c.toLower.isLower = true := by
  have := alnum_ind (P := fun c => decide (c.isAlpha = true → c.toLower.isLower = true)) (by decide +kernel)
    (c := c) (by simp [Char.isAlphanum, h])
  exact of_decide_eq_true this h

theorem digit_same {c : Char} (h : c.isDigit = true) : c.toLower = c ∧ c.toUpper = c := by
  have := alnum_ind (P := fun c => decide (c.isDigit = true → c.toLower = c ∧ c.toUpper = c))
    (by decide +kernel) (c := c) (by simp [Char.isAlphanum, h])
  exact of_decide_eq_true this h

theorem lower_not_digit {c : Char} (h : c.isLower = true) : c.isDigit = false := by
  have := alnum_ind (P := fun c => decide (c.isLower = true → c.isDigit = false))
    (by decide +kernel) (c := c) (by simp [Char.isAlphanum, Char.isAlpha, h])
  exact of_decide_eq_true this h

theorem upper_not_lower {c : Char} (h : c.isUpper = true) : c.isLower = false := by
  have := alnum_ind (P := fun c => decide (c.isUpper = true → c.isLower = false))
    (by decide +kernel) (c := c) (by simp [Char.isAlphanum, Char.isAlpha, h])
  exact of_decide_eq_true this h

theorem alpha_not_digit {c : Char} (h : c.isAlpha = true) : c.isDigit = false := by
  have := alnum_ind (P := fun c => decide (c.isAlpha = true → c.isDigit = false))
    (by decide +kernel) (c := c) (by simp [Char.isAlphanum, h])
  exact of_decide_eq_true this h

/-! ## Words -/

theorem humps_flatten : ∀ (s : Name) (m : Mode) (cur : Name), s ≠ [] → (humps m cur s).flatten = cur ++ s
  | [], _, _, h => absurd rfl h
  | [c], _, _, _ => by simp [humps]
  | c :: d :: s, m, cur, _ => by
    have ih := humps_flatten (d :: s)
    rw [humps]
    generalize (if c.isLower = true then Mode.lower else if c.isUpper = true then .upper else m) = nm
    split
    · simp [ih _ _ (List.cons_ne_nil _ _)]
    · split
      · simp [ih _ _ (List.cons_ne_nil _ _)]
      · simp [ih _ _ (List.cons_ne_nil _ _)]

theorem humps_flatten' (s : Name) : (humps .boundary [] s).flatten = s := by
  cases s with
  | nil => rfl
  | cons c s => simpa using humps_flatten (c :: s) .boundary [] (by simp)

theorem humps_ne : ∀ (s : Name) (m : Mode) (cur : Name), (m = .upper → cur ≠ []) →
    ∀ w ∈ humps m cur s, w ≠ []
  | [], _, _, _ => by simp [humps]
  | [c], _, _, _ => by simp [humps]
  | c :: d :: s, m, cur, h => by
    have ih := humps_ne (d :: s)
    rw [humps]
    generalize (if c.isLower = true then Mode.lower else if c.isUpper = true then .upper else m) = nm
    split
    · intro w hw
      rcases List.mem_cons.1 hw with rfl | hw
      · simp
      · exact ih _ _ (by simp) w hw
    · split
      · rename_i h2
        intro w hw
        rcases List.mem_cons.1 hw with rfl | hw
        · exact h h2.1
        · exact ih _ _ (by simp) w hw
      · exact ih _ _ (by simp)

theorem pieces_ne (s : Name) : pieces s ≠ [] := by
  induction s with
  | nil => simp [pieces]
  | cons c s ih =>
    rw [pieces]
    split
    · split <;> simp
    · contradiction

theorem pieces_cons (c : Char) (s : Name) : ∃ p ps, pieces s = p :: ps ∧
    pieces (c :: s) = if c.isAlphanum then (c :: p) :: ps else [] :: p :: ps := by
  cases h : pieces s with
  | nil => exact absurd h (pieces_ne s)
  | cons p ps => exact ⟨p, ps, rfl, by rw [pieces, h]⟩

theorem pieces_flatten (s : Name) : (pieces s).flatten = s.filter Char.isAlphanum := by
  induction s with
  | nil => rfl
  | cons c s ih =>
    obtain ⟨p, ps, h1, h2⟩ := pieces_cons c s
    rw [h1] at ih
    rw [h2]
    split
    · rename_i hc
      rw [List.filter_cons_of_pos hc, ← ih]; simp
    · rename_i hc
      rw [List.filter_cons_of_neg hc, ← ih]; simp

theorem words_flatten (s : Name) : (words s).flatten = s.filter Char.isAlphanum := by
  rw [← pieces_flatten, words]
  induction pieces s with
  | nil => rfl
  | cons p ps ih => simp [humps_flatten', ih]

theorem words_ne {s w : Name} (h : w ∈ words s) : w ≠ [] := by
  obtain ⟨p, _, hw⟩ := List.mem_flatMap.1 h
  exact humps_ne p _ _ (by simp) w hw

theorem words_alnum {s w : Name} (h : w ∈ words s) : ∀ c ∈ w, c.isAlphanum = true := by
  intro c hc
  have : c ∈ (words s).flatten := List.mem_flatten.2 ⟨w, h, hc⟩
  rw [words_flatten] at this
  exact (List.mem_filter.1 this).2

/-- The words of a name in small letters. -/
def lw (s : Name) : List Name := (words s).map lower

/-- Words that are not empty and have no capital letters. -/
def Words (ws : List Name) : Prop := ∀ w ∈ ws, w ≠ [] ∧ ∀ c ∈ w, Low c

theorem lw_words (s : Name) : Words (lw s) := by
  intro w hw
  obtain ⟨v, hv, rfl⟩ := List.mem_map.1 hw
  refine ⟨by simpa [lower] using words_ne hv, ?_⟩
  intro c hc
  obtain ⟨d, hd, rfl⟩ := List.mem_map.1 hc
  exact lower_low (words_alnum hv d hd)

theorem lw_flatten (s : Name) : (lw s).flatten = letters s := by
  unfold lw letters
  rw [← words_flatten]
  have : ∀ ws : List Name, (ws.map lower).flatten = ws.flatten.map Char.toLower := by
    intro ws; induction ws with
    | nil => rfl
    | cons w ws ih => simp [ih, lower]
  exact this _

theorem lower_of_lows {w : Name} (h : ∀ c ∈ w, Low c) : lower w = w := by
  induction w with
  | nil => rfl
  | cons c w ih =>
    rw [lower, List.map_cons, lower_of_low (h c (by simp))]
    congr 1
    exact ih fun d hd => h d (by simp [hd])

theorem upper_eq {w : Name} (h : ∀ c ∈ w, c.isAlphanum = true) : upper w = upper (lower w) := by
  simp only [upper, lower, List.map_map]
  apply List.map_congr_left
  intro c hc
  simp [upper_lower (h c hc)]

theorem capitalize_eq {w : Name} (h : ∀ c ∈ w, c.isAlphanum = true) : capitalize w = cap (lower w) := by
  cases w with
  | nil => rfl
  | cons c w => simp [capitalize, lower, cap, upper_lower (h c (by simp))]

theorem snake_eq (s : Name) : snake s = join (lw s) := rfl

theorem shouty_eq (s : Name) : shouty s = join ((lw s).map upper) := by
  unfold shouty lw
  rw [List.map_map]
  congr 1
  apply List.map_congr_left
  intro w hw
  exact upper_eq (words_alnum hw)

theorem camel_words {ws : List Name} (h : ∀ w ∈ ws, ∀ c ∈ w, c.isAlphanum = true) :
    ws.flatMap capitalize = camelName (ws.map lower) := by
  induction ws with
  | nil => rfl
  | cons w ws ih =>
    rw [List.flatMap_cons, capitalize_eq (h w (by simp)), ih fun v hv => h v (by simp [hv])]
    simp [camelName]

theorem upperCamel_eq (s : Name) : upperCamel s = camelName (lw s) :=
  camel_words fun _ hw => words_alnum hw

/-- Words with capital first letters, but the first word. -/
def lowerCamelName : List Name → Name
  | [] => []
  | w :: ws => w ++ camelName ws

theorem lowerCamel_eq (s : Name) : lowerCamel s = lowerCamelName (lw s) := by
  unfold lowerCamel lw
  cases h : words s with
  | nil => rfl
  | cons w ws =>
    have : ∀ v ∈ ws, v ∈ words s := fun v hv => by rw [h]; simp [hv]
    simp [lowerCamelName, camel_words fun v hv => words_alnum (this v hv)]

/-! ## The letters are kept -/

theorem filter_flatten {ws : List Name} (h : ∀ w ∈ ws, ∀ c ∈ w, c.isAlphanum = true) :
    (join ws).filter Char.isAlphanum = ws.flatten := by
  induction ws with
  | nil => rfl
  | cons w ws ih =>
    have hw : w.filter Char.isAlphanum = w := List.filter_eq_self.2 (h w (by simp))
    cases ws with
    | nil => simp [join, hw]
    | cons v ws =>
      have := ih fun v hv => h v (by simp [hv])
      rw [join, List.filter_append, hw, List.filter_cons_of_neg (by decide), this]
      simp

theorem lows_alnum {ws : List Name} (h : Words ws) : ∀ w ∈ ws, ∀ c ∈ w, c.isAlphanum = true :=
  fun w hw c hc => low_alnum ((h w hw).2 c hc)

theorem lower_flatten {ws : List Name} (h : Words ws) : ws.flatten.map Char.toLower = ws.flatten := by
  have : lower ws.flatten = ws.flatten := by
    apply lower_of_lows
    intro c hc
    obtain ⟨w, hw, hc⟩ := List.mem_flatten.1 hc
    exact (h w hw).2 c hc
  exact this

theorem letters_snake (s : Name) : letters (snake s) = letters s := by
  rw [snake_eq]
  unfold letters
  rw [filter_flatten (lows_alnum (lw_words s)), lower_flatten (lw_words s)]
  exact lw_flatten s

theorem lower_upper_flatten {ws : List Name} (h : Words ws) :
    (ws.map upper).flatten.map Char.toLower = ws.flatten := by
  induction ws with
  | nil => rfl
  | cons w ws ih =>
    simp only [List.map_cons, List.flatten_cons, List.map_append]
    rw [ih fun v hv => h v (by simp [hv])]
    congr 1
    have h1 := (h w (by simp)).2
    simp only [upper, List.map_map]
    conv => rhs; rw [← List.map_id w]
    apply List.map_congr_left
    intro c hc
    simp [lower_upper (low_alnum (h1 c hc)), lower_of_low (h1 c hc)]

theorem letters_shouty (s : Name) : letters (shouty s) = letters s := by
  rw [shouty_eq]
  unfold letters
  rw [filter_flatten, lower_upper_flatten (lw_words s)]
  · exact lw_flatten s
  · intro w hw c hc
    obtain ⟨v, hv, rfl⟩ := List.mem_map.1 hw
    obtain ⟨d, hd, rfl⟩ := List.mem_map.1 hc
    exact upper_alnum (low_alnum ((lw_words s v hv).2 d hd))

theorem letters_camel {ws : List Name} (h : Words ws) : letters (camelName ws) = ws.flatten := by
  unfold camelName
  induction ws with
  | nil => rfl
  | cons w ws ih =>
    have ih := ih fun v hv => h v (by simp [hv])
    obtain ⟨hn, hl⟩ := h w (by simp)
    cases w with
    | nil => simp at hn
    | cons c w =>
      unfold letters at *
      simp only [List.map_cons, List.flatten_cons, List.filter_append, List.map_append, ih, cap]
      congr 1
      have hc := hl c (by simp)
      rw [List.filter_cons_of_pos (upper_alnum (low_alnum hc))]
      rw [List.filter_eq_self.2 fun d hd => low_alnum (hl d (by simp [hd]))]
      have : lower w = w := lower_of_lows fun d hd => hl d (by simp [hd])
      simp only [List.map_cons, lower_upper (low_alnum hc), lower_of_low hc]
      rw [lower] at this; rw [this]

theorem letters_upperCamel (s : Name) : letters (upperCamel s) = letters s := by
  rw [upperCamel_eq, letters_camel (lw_words s), lw_flatten]

theorem letters_append (a b : Name) : letters (a ++ b) = letters a ++ letters b := by
  simp [letters]

theorem letters_lows {w : Name} (h : ∀ c ∈ w, Low c) : letters w = w := by
  unfold letters
  rw [List.filter_eq_self.2 fun d hd => low_alnum (h d hd)]
  exact lower_of_lows h

theorem letters_lowerCamel (s : Name) : letters (lowerCamel s) = letters s := by
  rw [lowerCamel_eq, ← lw_flatten s]
  have h := lw_words s
  cases hs : lw s with
  | nil => rfl
  | cons w ws =>
    rw [hs] at h
    rw [lowerCamelName, letters_append, letters_lows (h w (by simp)).2,
      letters_camel fun v hv => h v (by simp [hv])]
    rfl

end Verif.Gen.Names
