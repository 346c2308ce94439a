import Verif.Gen.NamesLemmas

/-! When two names come out the same, and what happens to names in the usual styles. -/

namespace Verif.Gen.Names

open Verif.Gen.NamesSpec

/-! ## Separators -/

theorem span_unique {P : Char → Prop} : ∀ {a a' b b' : Name}, (∀ c ∈ a, P c) → (∀ c ∈ a', P c) →
    (∀ c ∈ b.head?, ¬P c) → (∀ c ∈ b'.head?, ¬P c) → a ++ b = a' ++ b' → a = a' ∧ b = b'
  | [], [], _, _, _, _, _, _, h => ⟨rfl, h⟩
  | [], c :: a', b, b', _, h2, h3, _, h => by
    simp only [List.nil_append, List.cons_append] at h
    subst h
    exact absurd (h2 c (by simp)) (h3 c (by simp))
  | c :: a, [], b, b', h1, _, _, h4, h => by
    simp only [List.nil_append, List.cons_append] at h
    subst h
    exact absurd (h1 c (by simp)) (h4 c (by simp))
  | c :: a, c' :: a', b, b', h1, h2, h3, h4, h => by
    simp only [List.cons_append, List.cons.injEq] at h
    obtain ⟨rfl, h⟩ := h
    obtain ⟨rfl, rfl⟩ := span_unique (fun d hd => h1 d (by simp [hd])) (fun d hd => h2 d (by simp [hd])) h3 h4 h
    exact ⟨rfl, rfl⟩

/-- What follows the first word. -/
def tailOf : List Name → Name
  | [] => []
  | v :: ws => '_' :: join (v :: ws)

theorem join_cons (w : Name) (ws : List Name) : join (w :: ws) = w ++ tailOf ws := by
  cases ws with
  | nil => simp [join, tailOf]
  | cons v ws => simp [join, tailOf]

theorem join_inj {P : Char → Prop} (hP : ¬P '_') : ∀ {ws vs : List Name},
    (∀ w ∈ ws, w ≠ [] ∧ ∀ c ∈ w, P c) → (∀ w ∈ vs, w ≠ [] ∧ ∀ c ∈ w, P c) → join ws = join vs → ws = vs
  | [], [], _, _, _ => rfl
  | [], v :: vs, _, h2, h => by
    rw [join_cons] at h
    have := (h2 v (by simp)).1
    cases v <;> simp [join] at *
  | w :: ws, [], h1, _, h => by
    rw [join_cons] at h
    have := (h1 w (by simp)).1
    cases w <;> simp [join] at *
  | w :: ws, v :: vs, h1, h2, h => by
    rw [join_cons, join_cons] at h
    have ht : ∀ us : List Name, ∀ c ∈ (tailOf us).head?, ¬P c := by
      intro us; cases us <;> simp [tailOf, hP]
    obtain ⟨rfl, h'⟩ := span_unique (h1 w (by simp)).2 (h2 v (by simp)).2 (ht ws) (ht vs) h
    clear h
    have h1' : ∀ w ∈ ws, w ≠ [] ∧ ∀ c ∈ w, P c := fun u hu => h1 u (by simp [hu])
    have h2' : ∀ w ∈ vs, w ≠ [] ∧ ∀ c ∈ w, P c := fun u hu => h2 u (by simp [hu])
    cases ws with
    | nil => cases vs with
      | nil => rfl
      | cons _ _ => simp [tailOf] at h'
    | cons x xs => cases vs with
      | nil => simp [tailOf] at h'
      | cons y ys =>
        simp only [tailOf, List.cons.injEq, true_and] at h'
        rw [join_inj hP h1' h2' h']

theorem snake_iff (s t : Name) : snake s = snake t ↔ lw s = lw t := by
  constructor
  · exact join_inj (P := Low) (by decide) (lw_words s) (lw_words t)
  · intro h; rw [snake_eq, snake_eq, h]

theorem upper_inj : ∀ {w v : Name}, (∀ c ∈ w, Low c) → (∀ c ∈ v, Low c) → upper w = upper v → w = v
  | [], [], _, _, _ => rfl
  | [], _ :: _, _, _, h => by simp [upper] at h
  | _ :: _, [], _, _, h => by simp [upper] at h
  | c :: w, d :: v, h1, h2, h => by
    simp only [upper, List.map_cons, List.cons.injEq] at h
    rw [toUpper_inj (h1 c (by simp)) (h2 d (by simp)) h.1,
      upper_inj (fun x hx => h1 x (by simp [hx])) (fun x hx => h2 x (by simp [hx])) h.2]

theorem map_upper_inj : ∀ {ws vs : List Name}, Words ws → Words vs → ws.map upper = vs.map upper → ws = vs
  | [], [], _, _, _ => rfl
  | [], _ :: _, _, _, h => by simp at h
  | _ :: _, [], _, _, h => by simp at h
  | w :: ws, v :: vs, h1, h2, h => by
    simp only [List.map_cons, List.cons.injEq] at h
    rw [upper_inj (h1 w (by simp)).2 (h2 v (by simp)).2 h.1,
      map_upper_inj (fun x hx => h1 x (by simp [hx])) (fun x hx => h2 x (by simp [hx])) h.2]

theorem uppers {ws : List Name} (h : Words ws) :
    ∀ w ∈ ws.map upper, w ≠ [] ∧ ∀ c ∈ w, c.isAlphanum = true := by
  intro w hw
  obtain ⟨v, hv, rfl⟩ := List.mem_map.1 hw
  refine ⟨by simpa [upper] using (h v hv).1, ?_⟩
  intro c hc
  obtain ⟨d, hd, rfl⟩ := List.mem_map.1 hc
  exact upper_alnum (low_alnum ((h v hv).2 d hd))

theorem shouty_iff (s t : Name) : shouty s = shouty t ↔ lw s = lw t := by
  constructor
  · intro h
    rw [shouty_eq, shouty_eq] at h
    exact map_upper_inj (lw_words s) (lw_words t)
      (join_inj (P := fun c => c.isAlphanum = true) (by decide) (uppers (lw_words s)) (uppers (lw_words t)) h)
  · intro h; rw [shouty_eq, shouty_eq, h]

/-! ## Capital letters -/

/-- Begins with a digit. -/
def digitFirst : Name → Bool
  | [] => false
  | c :: _ => c.isDigit

/-- Words that begin with a digit are put at the end of the word before. -/
def merge : List Name → List Name
  | [] => []
  | w :: ws => match merge ws with
    | [] => [w]
    | v :: vs => if digitFirst v then (w ++ v) :: vs else w :: v :: vs

theorem merge_cons (w : Name) (ws : List Name) : ∃ u vs, merge (w :: ws) = (w ++ u) :: vs ∧
    (u = [] ∧ vs = merge ws ∨ merge ws = u :: vs ∧ digitFirst u = true) := by
  rw [merge]
  cases h : merge ws with
  | nil => exact ⟨[], [], by simp, by simp⟩
  | cons v vs =>
    by_cases hd : digitFirst v
    · exact ⟨v, vs, by simp [hd], by simp [hd]⟩
    · exact ⟨[], v :: vs, by simp [hd], by simp⟩

theorem cap_append {w u : Name} (h : w ≠ []) : cap (w ++ u) = cap w ++ u := by
  cases w with
  | nil => simp at h
  | cons c w => simp [cap]

theorem cap_digit {u : Name} (h : digitFirst u = true) : cap u = u := by
  cases u with
  | nil => rfl
  | cons c u => simp [cap, (digit_same (show c.isDigit = true from h)).2]

theorem merge_words {ws : List Name} (h : Words ws) : Words (merge ws) := by
  induction ws with
  | nil => simpa [merge] using h
  | cons w ws ih =>
    have ih := ih fun x hx => h x (by simp [hx])
    obtain ⟨u, vs, h1, h2⟩ := merge_cons w ws
    rw [h1]
    obtain ⟨hn, hl⟩ := h w (by simp)
    intro x hx
    rcases h2 with ⟨rfl, rfl⟩ | ⟨h2, _⟩
    · rcases List.mem_cons.1 hx with rfl | hx
      · simpa using ⟨hn, hl⟩
      · exact ih x hx
    · rw [h2] at ih
      rcases List.mem_cons.1 hx with rfl | hx
      · refine ⟨by simp [hn], ?_⟩
        intro c hc
        rcases List.mem_append.1 hc with hc | hc
        · exact hl c hc
        · exact (ih u (by simp)).2 c hc
      · exact ih x (by simp [hx])

theorem camel_merge {ws : List Name} (h : Words ws) : camelName (merge ws) = camelName ws := by
  induction ws with
  | nil => rfl
  | cons w ws ih =>
    have ih := ih fun x hx => h x (by simp [hx])
    obtain ⟨u, vs, h1, h2⟩ := merge_cons w ws
    rw [h1]
    rcases h2 with ⟨rfl, rfl⟩ | ⟨h2, hd⟩
    · simpa [camelName] using ih
    · rw [h2] at ih
      simp only [camelName, List.map_cons, List.flatten_cons] at *
      rw [cap_append (h w (by simp)).1, List.append_assoc, ← ih, cap_digit hd]

theorem lowerCamel_merge {ws : List Name} (h : Words ws) : lowerCamelName (merge ws) = lowerCamelName ws := by
  cases ws with
  | nil => rfl
  | cons w ws =>
    have ih := camel_merge (ws := ws) fun x hx => h x (by simp [hx])
    obtain ⟨u, vs, h1, h2⟩ := merge_cons w ws
    rw [h1]
    rcases h2 with ⟨rfl, rfl⟩ | ⟨h2, hd⟩
    · simp [lowerCamelName, ih]
    · rw [h2] at ih
      simp only [lowerCamelName, List.append_assoc]
      rw [← ih]
      simp [camelName, cap_digit hd]

/-- No word but the first begins with a digit. -/
def Merged : List Name → Prop
  | [] => True
  | _ :: ws => ∀ w ∈ ws, digitFirst w = false

theorem merge_merged {ws : List Name} (h : Words ws) : Merged (merge ws) := by
  induction ws with
  | nil => trivial
  | cons w ws ih =>
    have hw : Words ws := fun x hx => h x (by simp [hx])
    have ih := ih hw
    rw [merge]
    cases hm : merge ws with
    | nil => simp [Merged]
    | cons v vs =>
      rw [hm] at ih
      simp only
      split
      · exact ih
      · rename_i hd
        intro x hx
        rcases List.mem_cons.1 hx with rfl | hx
        · simpa using hd
        · exact ih x hx

theorem camel_head {ws : List Name} (h : Words ws) (hd : ∀ w ∈ ws, digitFirst w = false) :
    ∀ c ∈ (camelName ws).head?, ¬Low c := by
  cases ws with
  | nil => simp [camelName]
  | cons w ws =>
    have hw := h w (by simp)
    have hd := hd w (by simp)
    cases w with
    | nil => simp at hw
    | cons c w =>
      intro d hdd
      simp [camelName, cap] at hdd
      subst hdd
      intro hl
      have hc := hw.2 c (by simp)
      have : c.isLower = true := by
        rcases hc with hc | hc
        · exact hc
        · simp [digitFirst, hc] at hd
      have := upper_isUpper (c := c) (by simp [Char.isAlpha, this])
      rw [not_upper_of_low hl] at this
      simp at this

theorem camel_inj : ∀ {ws vs : List Name}, Words ws → Words vs → Merged ws → Merged vs →
    camelName ws = camelName vs → ws = vs
  | [], [], _, _, _, _, _ => rfl
  | [], v :: vs, _, h2, _, _, h => by
    have := (h2 v (by simp)).1
    cases v <;> simp [camelName, cap] at *
  | w :: ws, [], h1, _, _, _, h => by
    have := (h1 w (by simp)).1
    cases w <;> simp [camelName, cap] at *
  | w :: ws, v :: vs, h1, h2, m1, m2, h => by
    have hw := h1 w (by simp)
    have hv := h2 v (by simp)
    have h1' : Words ws := fun x hx => h1 x (by simp [hx])
    have h2' : Words vs := fun x hx => h2 x (by simp [hx])
    match w, v, hw, hv with
    | [], _, hw, _ => simp at hw
    | _, [], _, hv => simp at hv
    | c :: w, d :: v, hw, hv =>
      simp only [camelName, List.map_cons, List.flatten_cons, cap, List.cons_append, List.cons.injEq] at h
      obtain ⟨h3, h4⟩ := span_unique (P := Low) (fun x hx => hw.2 x (by simp [hx]))
        (fun x hx => hv.2 x (by simp [hx])) (camel_head h1' m1) (camel_head h2' m2) h.2
      have mt : ∀ {u : Name} {us : List Name}, Merged (u :: us) → Merged us := by
        intro u us hm
        cases us with
        | nil => trivial
        | cons x xs => exact fun y hy => hm y (by simp [hy])
      rw [camel_inj h1' h2' (mt m1) (mt m2) h4, h3,
        toUpper_inj (hw.2 c (by simp)) (hv.2 d (by simp)) h.1]

theorem upperCamel_iff (s t : Name) : upperCamel s = upperCamel t ↔ merge (lw s) = merge (lw t) := by
  rw [upperCamel_eq, upperCamel_eq, ← camel_merge (lw_words s), ← camel_merge (lw_words t)]
  refine ⟨?_, fun h => by rw [h]⟩
  exact camel_inj (merge_words (lw_words s)) (merge_words (lw_words t)) (merge_merged (lw_words s))
    (merge_merged (lw_words t))

theorem lowerCamel_inj {ws vs : List Name} (h1 : Words ws) (h2 : Words vs) (m1 : Merged ws) (m2 : Merged vs)
    (h : lowerCamelName ws = lowerCamelName vs) : ws = vs := by
  match ws, vs with
  | [], [] => rfl
  | [], v :: vs =>
    have := (h2 v (by simp)).1
    cases v <;> simp [lowerCamelName] at *
  | w :: ws, [] =>
    have := (h1 w (by simp)).1
    cases w <;> simp [lowerCamelName] at *
  | w :: ws, v :: vs =>
    have h1' : Words ws := fun x hx => h1 x (by simp [hx])
    have h2' : Words vs := fun x hx => h2 x (by simp [hx])
    have mt : ∀ {u : Name} {us : List Name}, Merged (u :: us) → Merged us := by
      intro u us hm
      cases us with
      | nil => trivial
      | cons x xs => exact fun y hy => hm y (by simp [hy])
    obtain ⟨h3, h4⟩ := span_unique (P := Low) (h1 w (by simp)).2 (h2 v (by simp)).2
      (camel_head h1' m1) (camel_head h2' m2) h
    rw [camel_inj h1' h2' (mt m1) (mt m2) h4, h3]

theorem lowerCamel_iff (s t : Name) : lowerCamel s = lowerCamel t ↔ merge (lw s) = merge (lw t) := by
  rw [lowerCamel_eq, lowerCamel_eq, ← lowerCamel_merge (lw_words s), ← lowerCamel_merge (lw_words t)]
  refine ⟨?_, fun h => by rw [h]⟩
  exact lowerCamel_inj (merge_words (lw_words s)) (merge_words (lw_words t)) (merge_merged (lw_words s))
    (merge_merged (lw_words t))

/-! ## Names in the usual styles -/

theorem pieces_alnum {w : Name} (h : ∀ c ∈ w, c.isAlphanum = true) (s : Name) :
    ∃ p ps, pieces s = p :: ps ∧ pieces (w ++ s) = (w ++ p) :: ps := by
  induction w with
  | nil =>
    cases hs : pieces s with
    | nil => exact absurd hs (pieces_ne s)
    | cons p ps => exact ⟨p, ps, rfl, by simpa using hs⟩
  | cons c w ih =>
    obtain ⟨p, ps, h1, h2⟩ := ih fun d hd => h d (by simp [hd])
    refine ⟨p, ps, h1, ?_⟩
    rw [List.cons_append, pieces, h2]
    simp [h c (by simp)]

theorem pieces_join {ws : List Name} (hne : ws ≠ []) (h : ∀ w ∈ ws, ∀ c ∈ w, c.isAlphanum = true) :
    pieces (join ws) = ws := by
  induction ws with
  | nil => simp at hne
  | cons w ws ih =>
    obtain ⟨p, ps, h1, h2⟩ := pieces_alnum (h w (by simp)) (tailOf ws)
    rw [join_cons, h2]
    cases ws with
    | nil =>
      simp only [tailOf, pieces, List.cons.injEq] at h1
      obtain ⟨rfl, rfl⟩ := h1
      simp
    | cons v vs =>
      have ih := ih (by simp) fun x hx => h x (by simp [hx])
      rw [tailOf, pieces, ih] at h1
      simp only [show Char.isAlphanum '_' = false by decide, Bool.false_eq_true, if_false,
        List.cons.injEq] at h1
      obtain ⟨rfl, rfl⟩ := h1
      simp

theorem humps_low : ∀ (s : Name) (m : Mode) (cur : Name), s ≠ [] → (∀ c ∈ s, Low c) → m ≠ .upper →
    humps m cur s = [cur ++ s]
  | [], _, _, h, _, _ => absurd rfl h
  | [c], _, _, _, _, _ => by simp [humps]
  | c :: d :: s, m, cur, _, h, hm => by
    have hd := not_upper_of_low (h d (by simp))
    have hc := not_upper_of_low (h c (by simp))
    rw [humps]
    simp only [hd, hc, Bool.false_eq_true, and_false, false_and, if_false]
    rw [humps_low (d :: s) _ _ (by simp) (fun x hx => h x (by simp [hx]))]
    · simp
    · split <;> simp [hm]

theorem word_low {w : Name} (h : Word w) : w ≠ [] ∧ ∀ c ∈ w, Low c := by
  cases w with
  | nil => exact h.elim
  | cons c w =>
    refine ⟨by simp, ?_⟩
    intro d hd
    rcases List.mem_cons.1 hd with rfl | hd
    · exact .inl h.1
    · exact h.2 d hd

theorem words_join {ws : List Name} (h : Words ws) : words (join ws) = ws := by
  cases hws : ws with
  | nil => rfl
  | cons v vs =>
    rw [← hws, words, pieces_join (by simp [hws]) (lows_alnum h)]
    clear hws
    induction ws with
    | nil => rfl
    | cons w ws ih =>
      rw [List.flatMap_cons, ih fun x hx => h x (by simp [hx]),
        humps_low w _ _ (h w (by simp)).1 (h w (by simp)).2 (by simp)]
      simp

theorem snakeName_join : ∀ ws : List Name, snakeName ws = join ws
  | [] => rfl
  | [_] => rfl
  | w :: v :: ws => by rw [snakeName, join, snakeName_join (v :: ws)]

theorem map_lower {ws : List Name} (h : Words ws) : ws.map lower = ws := by
  conv => rhs; rw [← List.map_id ws]
  apply List.map_congr_left
  intro w hw
  exact lower_of_lows (h w hw).2

theorem lw_snakeName {ws : List Name} (h : ∀ w ∈ ws, Word w) : lw (snakeName ws) = ws := by
  have hw : Words ws := fun w hw => word_low (h w hw)
  rw [lw, snakeName_join, words_join hw, map_lower hw]

theorem word_digit {w : Name} (h : Word w) : digitFirst w = false := by
  cases w with
  | nil => exact h.elim
  | cons c w => exact lower_not_digit h.1

theorem merge_letters {ws : List Name} (h : ∀ w ∈ ws, digitFirst w = false) : merge ws = ws := by
  induction ws with
  | nil => rfl
  | cons w ws ih =>
    rw [merge, ih fun x hx => h x (by simp [hx])]
    cases ws with
    | nil => rfl
    | cons v vs => simp [h v (by simp)]

theorem humps_word : ∀ (s rest : Name) (m : Mode) (cur : Name), (∀ c ∈ s, Low c) → (∀ c ∈ rest.head?, c.isUpper = true) →
    (m = .lower ∨ ∃ c ∈ s, c.isLower = true) → (m = .lower → cur ≠ []) → s ≠ [] →
    humps m cur (s ++ rest) = (cur ++ s) :: humps .boundary [] rest
  | [], _, _, _, _, _, _, _, hs => absurd rfl hs
  | [c], [], _, _, _, _, _, _, _ => by simp [humps]
  | [c], d :: rest, m, cur, h1, h2, h3, _, _ => by
    have hd := h2 d (by simp)
    have hc := not_upper_of_low (h1 c (by simp))
    rw [List.singleton_append, humps]
    have : (if c.isLower = true then Mode.lower else if c.isUpper = true then .upper else m) = .lower := by
      by_cases hl : c.isLower = true
      · simp [hl]
      · rcases h3 with rfl | ⟨x, hx, hxl⟩
        · simp [hl, hc]
        · simp at hx; subst hx; exact absurd hxl hl
    rw [this, if_pos ⟨rfl, hd⟩]
  | c :: e :: s, rest, m, cur, h1, h2, h3, h4, _ => by
    have he := not_upper_of_low (h1 e (by simp))
    have hc := not_upper_of_low (h1 c (by simp))
    rw [List.cons_append, List.cons_append, humps]
    simp only [he, hc, Bool.false_eq_true, and_false, false_and, if_false]
    rw [← List.cons_append, humps_word (e :: s) rest _ _ (fun x hx => h1 x (by simp [hx])) h2 _ (by simp) (by simp)]
    · simp
    · by_cases hl : c.isLower = true
      · simp [hl]
      · rcases h3 with rfl | ⟨x, hx, hxl⟩
        · simp [hl]
        · rcases List.mem_cons.1 hx with rfl | hx
          · exact absurd hxl hl
          · exact .inr ⟨x, hx, hxl⟩

theorem humps_cap {w rest : Name} (h : LongWord w) (hr : ∀ c ∈ rest.head?, c.isUpper = true) :
    humps .boundary [] (cap w ++ rest) = cap w :: humps .boundary [] rest := by
  obtain ⟨hw, x, hx, hxl⟩ := h
  match w, hw with
  | c :: [], _ => simp at hx
  | c :: d :: w, hw =>
    have hu := upper_isUpper (c := c) (by simp [Char.isAlpha, hw.1])
    have hd := not_upper_of_low (hw.2 d (by simp))
    rw [cap, List.cons_append, List.cons_append, humps]
    simp only [hd, hu, Bool.false_eq_true, and_false, upper_not_lower hu, if_false, if_true,
      reduceCtorEq, false_and]
    rw [← List.cons_append, humps_word (d :: w) rest .upper _ (fun y hy => hw.2 y hy) hr
      (.inr ⟨x, hx, hxl⟩) (by simp) (by simp)]
    simp

theorem camel_upper {ws : List Name} (h : ∀ w ∈ ws, Word w) : ∀ c ∈ (camelName ws).head?, c.isUpper = true := by
  cases ws with
  | nil => simp [camelName]
  | cons w ws =>
    have hw := h w (by simp)
    cases w with
    | nil => exact hw.elim
    | cons c w =>
      intro d hd
      simp [camelName, cap] at hd
      subst hd
      exact upper_isUpper (by simp [Char.isAlpha, hw.1])

theorem humps_camel {ws : List Name} (h : ∀ w ∈ ws, LongWord w) :
    humps .boundary [] (camelName ws) = ws.map cap := by
  induction ws with
  | nil => rfl
  | cons w ws ih =>
    have ih := ih fun x hx => h x (by simp [hx])
    have hu := camel_upper (ws := ws) fun x hx => (h x (by simp [hx])).1
    have := humps_cap (h w (by simp)) hu
    rw [ih] at this
    simpa [camelName] using this

theorem cap_alnum {w : Name} (h : Word w) : ∀ c ∈ cap w, c.isAlphanum = true := by
  cases w with
  | nil => exact h.elim
  | cons c w =>
    intro d hd
    have hl := (word_low h).2
    rcases List.mem_cons.1 hd with rfl | hd
    · exact upper_alnum (low_alnum (hl c (by simp)))
    · exact low_alnum (hl d (by simp [hd]))

theorem lw_camelName {ws : List Name} (h : ∀ w ∈ ws, LongWord w) : lw (camelName ws) = ws := by
  have ha : ∀ c ∈ camelName ws, c.isAlphanum = true := by
    intro c hc
    obtain ⟨v, hv, hc⟩ := List.mem_flatten.1 hc
    obtain ⟨w, hw, rfl⟩ := List.mem_map.1 hv
    exact cap_alnum (h w hw).1 c hc
  obtain ⟨p, ps, h1, h2⟩ := pieces_alnum ha []
  simp only [pieces, List.cons.injEq] at h1
  obtain ⟨rfl, rfl⟩ := h1
  simp only [List.append_nil] at h2
  rw [lw, words, h2]
  simp only [List.flatMap_cons, List.flatMap_nil, List.append_nil, humps_camel h, List.map_map]
  conv => rhs; rw [← List.map_id ws]
  apply List.map_congr_left
  intro w hw
  have hl := (word_low (h w hw).1).2
  cases w with
  | nil => rfl
  | cons c w =>
    have h0 : w.map Char.toLower = w := lower_of_lows fun d hd => hl d (by simp [hd])
    simp only [Function.comp, cap, lower, List.map_cons, h0, id]
    rw [lower_upper (low_alnum (hl c (by simp))), lower_of_low (hl c (by simp))]

end Verif.Gen.Names
