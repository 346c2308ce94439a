import Verif.Gen.DocsLemmas2

/-!
# Lemmas on the docstrings of Python
-/

namespace Verif.Gen.Docs

open Verif.Gen.DocsSpec

/-- Where a reader of a string is: after a backslash, or after some quotes. -/
inductive At
  | escaped | run (k : Nat)

/-- No three quotes, unless a backslash is before them. -/
def fine : At → Text → Bool
  | _, [] => true
  | .escaped, _ :: s => fine (.run 0) s
  | .run k, c :: s =>
    if c = '\\' then fine .escaped s else if c = '"' then decide (k < 2) && fine (.run (k + 1)) s else fine (.run 0) s

theorem fine_nl (st : At) (a b : Text) : fine st (a ++ '\n' :: b) = (fine st a && fine (.run 0) b) := by
  induction a generalizing st with
  | nil => cases st <;> simp [fine]
  | cons c a ih =>
    cases st with
    | escaped => simp only [List.cons_append, fine, ih]
    | run k =>
      simp only [List.cons_append, fine]
      split
      · exact ih _
      · split
        · rw [ih, Bool.and_assoc]
        · exact ih _

theorem fine_join (ls : List Text) : fine (.run 0) (joinNl ls) = ls.all (fine (.run 0)) := by
  induction ls with
  | nil => rfl
  | cons l ls ih =>
    cases ls with
    | nil => simp [joinNl]
    | cons m ls => rw [joinNl, fine_nl, ih]; rfl

theorem fine_spaces (n : Nat) (s : Text) : fine (.run 0) (List.replicate n ' ' ++ s) = fine (.run 0) s := by
  induction n with
  | zero => rfl
  | succ n ih => rw [List.replicate_succ, List.cons_append, fine]; simpa using ih

/-- How many quotes a text begins with. -/
def lead : Text → Nat
  | [] => 0
  | c :: s => if c = '"' then lead s + 1 else 0

theorem lead_quotes : ∀ s : Text, quotes <+: s ↔ 3 ≤ lead s
  | [] => by simp [quotes, lead]
  | [a] => by
    constructor
    · intro h; have := h.length_le; simp [quotes] at this
    · simp only [lead]; split <;> omega
  | [a, b] => by
    constructor
    · intro h; have := h.length_le; simp [quotes] at this
    · simp only [lead]; split
      · split <;> omega
      · omega
  | a :: b :: c :: s => by
    simp only [quotes, List.cons_prefix_cons, List.nil_prefix, and_true, lead]
    constructor
    · rintro ⟨rfl, rfl, rfl⟩; simp
    · intro h
      split at h
      · split at h
        · split at h
          · simp_all
          · omega
        · omega
      · omega

def quoted : Text := ['\\', '"', '\\', '"', '\\', '"']

theorem replaceFrom_skip (pat rep : Text) (k : Nat) (s : Text) :
    replaceFrom pat rep k s = replaceFrom pat rep 0 (s.drop k) := by
  induction s generalizing k with
  | nil => simp [replaceFrom]
  | cons c s ih =>
    cases k with
    | zero => rfl
    | succ k => rw [replaceFrom, ih]; rfl

theorem fine_replace (n : Nat) : ∀ (s : Text) (st : At), s.length ≤ n →
    (match st with | .escaped => True | .run k => 3 ≤ lead s ∨ k + lead s ≤ 2) →
    fine st (replaceFrom quotes quoted 0 s) = true := by
  induction n with
  | zero =>
    intro s st hn _
    have : s = [] := List.length_eq_zero_iff.1 (by omega)
    subst this; cases st <;> rfl
  | succ n ih =>
    intro s st hn h
    cases s with
    | nil => cases st <;> rfl
    | cons c s =>
      have hlen : s.length ≤ n := by simpa using hn
      rw [replaceFrom]
      by_cases hq : quotes <+: c :: s
      · rw [if_pos hq, replaceFrom_skip]
        have hnext : fine (.run 0) (replaceFrom quotes quoted 0 (s.drop (quotes.length - 1))) = true := by
          refine ih _ _ ?_ ?_
          · rw [List.length_drop]; omega
          · simp only; omega
        cases st with
        | escaped =>
          generalize replaceFrom quotes quoted 0 (s.drop (quotes.length - 1)) = r at hnext
          simpa [quoted, fine] using hnext
        | run k =>
          simp only [quoted, List.cons_append, List.nil_append, fine, if_true]
          exact hnext
      · rw [if_neg hq]
        have hlead : lead (c :: s) < 3 := by rw [lead_quotes] at hq; omega
        cases st with
        | escaped =>
          rw [fine]
          refine ih _ _ hlen ?_
          simp only
          rw [lead] at hlead
          omega
        | run k =>
          simp only at h
          rw [fine]
          split
          · exact ih _ _ hlen trivial
          · split
            · rename_i hc
              rw [lead, if_pos hc] at h hlead
              rw [ih _ _ hlen (by simp only; omega)]
              simp; omega
            · exact ih _ _ hlen (by simp only; omega)

theorem fine_text (s : Text) : fine (.run 0) (replace quotes quoted s) = true :=
  fine_replace s.length s (.run 0) (Nat.le_refl _) (by simp only; omega)

theorem fine_indent (n : Nat) {s : Text} (h : fine (.run 0) s = true) :
    fine (.run 0) (indent (List.replicate n ' ') s) = true := by
  rw [← join_split (indent _ s), fine_join, split_indent _ _ (spaces_no n)]
  rw [← join_split s, fine_join] at h
  rw [List.all_eq_true] at h ⊢
  intro l hl
  rcases List.mem_append.1 hl with hl | hl
  · obtain ⟨m, hm, rfl⟩ := List.mem_map.1 hl
    have hm := h m (drop_mem hm)
    rw [trimEnd_spaces]
    split
    · exact hm
    · rw [fine_spaces]; exact hm
  · split at hl
    · simp at hl; subst hl; rfl
    · simp at hl

theorem pyEnd_quotes (k : Nat) (hk : k ≤ 2) {c : Char} (hc : c ≠ '"') (r : Text) :
    pyEnd (List.replicate k '"' ++ c :: r) = pyEnd (c :: r) := by
  match k, hk with
  | 0, _ => rfl
  | 1, _ =>
    show pyEnd ('"' :: c :: r) = _
    rw [pyEnd]
    · intro _ _ h; exact absurd h (by decide)
    · intro s _ h; simp at h; exact hc h.1
  | 2, _ =>
    show pyEnd ('"' :: '"' :: c :: r) = _
    rw [pyEnd, pyEnd]
    · intro _ _ h; exact absurd h (by decide)
    · intro s _ h; simp at h; exact hc h.1
    · intro _ _ h; exact absurd h (by decide)
    · intro s _ h; simp at h; exact hc h.1

/-- A text that is fine and ends with the end of a line is read up to the quotes after it. -/
theorem pyEnd_fine (n : Nat) : ∀ (t : Text) (k : Nat), t.length ≤ n → k ≤ 2 → fine (.run k) t = true →
    t.getLast? = some '\n' → ∀ rest, pyEnd (List.replicate k '"' ++ (t ++ (quotes ++ rest))) = some rest := by
  induction n with
  | zero =>
    intro t k hn _ _ hl
    have : t = [] := List.length_eq_zero_iff.1 (by omega)
    subst this; simp at hl
  | succ n ih =>
    intro t k hn hk hf hl rest
    have hend : pyEnd (quotes ++ rest) = some rest := by
      show pyEnd ('"' :: '"' :: '"' :: rest) = _
      rw [pyEnd]
    cases t with
    | nil => simp at hl
    | cons c t =>
      have hlen : t.length ≤ n := by simpa using hn
      rw [fine] at hf
      by_cases hc : c = '\\'
      · subst hc
        rw [if_pos rfl] at hf
        cases t with
        | nil => simp at hl
        | cons d t =>
          rw [List.cons_append, pyEnd_quotes k hk (by decide), List.cons_append, pyEnd]
          rw [fine] at hf
          cases ht : t with
          | nil => exact hend
          | cons e t' =>
            rw [← ht]
            have := ih t 0 (by simp at hlen; omega) (by omega) hf (by rw [ht] at hl ⊢; simpa using hl) rest
            simpa using this
      · rw [if_neg hc] at hf
        by_cases hq : c = '"'
        · subst hq
          rw [if_pos rfl] at hf
          simp only [Bool.and_eq_true, decide_eq_true_eq] at hf
          have hne : t ≠ [] := by rintro rfl; simp at hl
          have := ih t (k + 1) hlen (by omega) hf.2 (by
            cases t with
            | nil => exact absurd rfl hne
            | cons d t => simpa using hl) rest
          rw [List.replicate_succ'] at this
          simpa using this
        · rw [if_neg hq] at hf
          rw [List.cons_append, pyEnd_quotes k hk hq, pyEnd]
          · cases ht : t with
            | nil => exact hend
            | cons e t' =>
              rw [← ht]
              have := ih t 0 hlen (by omega) hf (by rw [ht] at hl ⊢; simpa using hl) rest
              simpa using this
          · intro _ _ h; exact absurd h hc
          · intro s h; exact absurd h hq

/-! ## Values -/

/-- A text and how it is written with its quotes escaped. -/
inductive Written : Text → Text → Prop
  | nil : Written [] []
  | char {c : Char} {s t : Text} : c ≠ '\\' → Written s t → Written (c :: s) (c :: t)
  | quote {s t : Text} : Written s t → Written ('\\' :: '"' :: s) ('"' :: t)

theorem Written.value {s t : Text} (h : Written s t) : pyValue s = some t := by
  induction h with
  | nil => rfl
  | char hc _ ih =>
    rw [pyValue, ih]
    · rfl
    all_goals intros; simp_all
  | quote _ ih => rw [pyValue, ih]; rfl

theorem Written.append {s t s' t' : Text} (h : Written s t) (h' : Written s' t') : Written (s ++ s') (t ++ t') := by
  induction h with
  | nil => exact h'
  | char hc _ ih => exact .char hc ih
  | quote _ ih => exact .quote ih

theorem written_self {s : Text} (h : '\\' ∉ s) : Written s s := by
  induction s with
  | nil => exact .nil
  | cons c s ih =>
    exact .char (fun hc => h (by simp [hc])) (ih fun hs => h (by simp [hs]))

theorem written_replace (n : Nat) : ∀ s : Text, s.length ≤ n → '\\' ∉ s → Written (replaceFrom quotes quoted 0 s) s := by
  induction n with
  | zero =>
    intro s hn _
    have : s = [] := List.length_eq_zero_iff.1 (by omega)
    subst this; exact .nil
  | succ n ih =>
    intro s hn h
    cases s with
    | nil => exact .nil
    | cons c s =>
      have hlen : s.length ≤ n := by simpa using hn
      rw [replaceFrom]
      by_cases hq : quotes <+: c :: s
      · rw [if_pos hq, replaceFrom_skip]
        obtain ⟨t, ht⟩ := hq
        simp only [quotes, List.cons_append, List.nil_append, List.cons.injEq] at ht
        obtain ⟨rfl, rfl⟩ := ht
        have := ih t (by simp at hlen; omega) (fun hh => h (by simp [hh]))
        exact .quote (.quote (.quote this))
      · rw [if_neg hq]
        exact .char (fun hc => h (by simp [hc])) (ih s hlen fun hs => h (by simp [hs]))

theorem replaceFrom_mem {pat rep : Text} {c : Char} : ∀ {k : Nat} {s : Text}, c ∈ replaceFrom pat rep k s →
    c ∈ rep ∨ c ∈ s
  | _, [], h => by simp [replaceFrom] at h
  | k + 1, x :: s, h => by
    rw [replaceFrom] at h
    rcases replaceFrom_mem h with h | h
    · exact .inl h
    · exact .inr (by simp [h])
  | 0, x :: s, h => by
    rw [replaceFrom] at h
    split at h
    · rcases List.mem_append.1 h with h | h
      · exact .inl h
      · rcases replaceFrom_mem h with h | h
        · exact .inl h
        · exact .inr (by simp [h])
    · rcases List.mem_cons.1 h with h | h
      · exact .inr (by simp [h])
      · rcases replaceFrom_mem h with h | h
        · exact .inl h
        · exact .inr (by simp [h])

theorem replace_nl (s : Text) :
    replaceFrom quotes quoted 0 ('\n' :: s) = [] ++ '\n' :: replaceFrom quotes quoted 0 s := by
  have : ¬quotes <+: '\n' :: s := by rw [lead_quotes]; simp [lead]
  rw [replaceFrom.eq_3, if_neg this]; rfl

/-- Quotes are replaced line by line. -/
theorem replace_line (n : Nat) : ∀ (l s : Text), l.length ≤ n → '\n' ∉ l →
    replaceFrom quotes quoted 0 (l ++ '\n' :: s) = replaceFrom quotes quoted 0 l ++ '\n' :: replaceFrom quotes quoted 0 s := by
  induction n with
  | zero =>
    intro l s hn _
    have : l = [] := List.length_eq_zero_iff.1 (by omega)
    subst this
    exact replace_nl s
  | succ n ih =>
    intro l s hn hno
    cases l with
    | nil =>
      exact replace_nl s
    | cons c l =>
      have hlen : l.length ≤ n := by simpa using hn
      have hlead : ∀ l : Text, lead (l ++ '\n' :: s) = lead l := by
        intro l
        induction l with
        | nil => simp [lead]
        | cons d l ih => simp [lead, ih]
      rw [List.cons_append, replaceFrom, replaceFrom]
      have hiff : quotes <+: c :: (l ++ '\n' :: s) ↔ quotes <+: c :: l := by
        rw [lead_quotes, lead_quotes, ← List.cons_append, hlead]
      by_cases hq : quotes <+: c :: l
      · rw [if_pos hq, if_pos (hiff.2 hq), replaceFrom_skip, replaceFrom_skip (s := l)]
        obtain ⟨t, ht⟩ := hq
        simp only [quotes, List.cons_append, List.nil_append, List.cons.injEq] at ht
        obtain ⟨rfl, rfl⟩ := ht
        have := ih t s (by simp at hlen; omega) (fun hh => hno (by simp [hh]))
        show quoted ++ replaceFrom quotes quoted 0 (t ++ '\n' :: s) = _
        rw [this, ← List.append_assoc]; rfl
      · rw [if_neg hq, if_neg (fun h => hq (hiff.1 h)), ih l s hlen fun hs => hno (by simp [hs])]
        rfl

theorem replace_join : ∀ {ls : List Text}, (∀ l ∈ ls, '\n' ∉ l) →
    replace quotes quoted (joinNl ls) = joinNl (ls.map (replace quotes quoted))
  | [], _ => rfl
  | [l], _ => rfl
  | l :: m :: ls, h => by
    rw [joinNl, replace, replace_line l.length l _ (Nat.le_refl _) (h l (by simp))]
    have := replace_join (ls := m :: ls) fun x hx => h x (List.mem_cons_of_mem _ hx)
    unfold replace at this
    rw [this]; rfl

theorem replace_no {l : Text} (h : '\n' ∉ l) : '\n' ∉ replace quotes quoted l := by
  intro hh
  rcases replaceFrom_mem hh with hh | hh
  · revert hh; decide
  · exact h hh

theorem split_replace (s : Text) : splitNl (replace quotes quoted s) = (splitNl s).map (replace quotes quoted) := by
  have h := split_no s
  conv => lhs; rw [← join_split s]
  rw [replace_join h, split_join (by simpa using splitNl_ne s)]
  intro l hl
  obtain ⟨m, hm, rfl⟩ := List.mem_map.1 hl
  exact replace_no (h m hm)

theorem replace_nil {s : Text} : replace quotes quoted s = [] ↔ s = [] := by
  cases s with
  | nil => simp [replace, replaceFrom]
  | cons c s => simp only [replace, replaceFrom]; split <;> simp [quoted]

theorem drop_map_replace : ∀ ls : List Text, dropEmptyLast (ls.map (replace quotes quoted)) =
    (dropEmptyLast ls).map (replace quotes quoted)
  | [] => rfl
  | [l] => by
    simp only [List.map_cons, List.map_nil, dropEmptyLast, replace_nil]
    split <;> rfl
  | l :: m :: ls => by
    have := drop_map_replace (m :: ls)
    simp only [List.map_cons, dropEmptyLast] at this ⊢
    rw [this]

theorem ends_iff (s : Text) : endsNl s = true ↔ ∃ a, a ≠ [] ∧ splitNl s = a ++ [[]] := by
  rcases ends_cases s with ⟨rfl, h⟩ | ⟨t, rfl, h, he⟩ | ⟨a, l, hl, h, he⟩
  · rw [h]
    constructor
    · simp [endsNl]
    · rintro ⟨a, ha, h⟩
      cases a with
      | nil => exact absurd rfl ha
      | cons x a => simp at h
  · exact ⟨fun _ => ⟨splitNl t, splitNl_ne t, h⟩, fun _ => he⟩
  · rw [he, h]
    constructor
    · simp
    · rintro ⟨b, _, hb⟩
      have := congrArg List.getLast? hb
      simp at this
      exact absurd this hl

theorem ends_replace (s : Text) : endsNl (replace quotes quoted s) = endsNl s := by
  rw [Bool.eq_iff_iff, ends_iff, ends_iff, split_replace]
  constructor
  · rintro ⟨a, ha, h⟩
    obtain ⟨b, c, h1, h2, h3⟩ := List.map_eq_append_iff.1 h
    refine ⟨b, ?_, ?_⟩
    · rintro rfl; simp at h2; exact ha h2
    · rw [h1]
      obtain ⟨x, rfl⟩ : ∃ x, c = [x] := by
        rcases c with _ | ⟨x, _ | ⟨y, c⟩⟩
        · simp at h3
        · exact ⟨x, rfl⟩
        · simp at h3
      simp [replace_nil] at h3; rw [h3]
  · rintro ⟨a, ha, h⟩
    exact ⟨a.map (replace quotes quoted), by simpa using ha, by rw [h]; simp [replace, replaceFrom]⟩

theorem written_join {f : Text → Text} : ∀ {ls : List Text}, (∀ l ∈ ls, Written (f l) l) →
    Written (joinNl (ls.map f)) (joinNl ls)
  | [], _ => .nil
  | [l], h => h l (by simp)
  | l :: m :: ls, h => by
    have := written_join (f := f) (ls := m :: ls) fun x hx => h x (List.mem_cons_of_mem _ hx)
    exact (h l (by simp)).append (.char (by decide) this)

theorem blank_replace (l : Text) : blank (replace quotes quoted l) = blank l := by
  unfold replace
  suffices h : ∀ n, ∀ l : Text, l.length ≤ n → blank (replaceFrom quotes quoted 0 l) = blank l from
    h l.length l (Nat.le_refl _)
  intro n
  induction n with
  | zero =>
    intro l hn
    have : l = [] := List.length_eq_zero_iff.1 (by omega)
    subst this; rfl
  | succ n ih =>
    intro l hn
    cases l with
    | nil => rfl
    | cons c l =>
      have hlen : l.length ≤ n := by simpa using hn
      rw [replaceFrom]
      by_cases hq : quotes <+: c :: l
      · rw [if_pos hq]
        obtain ⟨t, ht⟩ := hq
        simp only [quotes, List.cons_append, List.nil_append, List.cons.injEq] at ht
        obtain ⟨rfl, rfl⟩ := ht
        have h1 : isWhite '\\' = false := by decide
        have h2 : isWhite '"' = false := by decide
        simp [blank, quoted, h1, h2]
      · rw [if_neg hq]
        have := ih l hlen
        unfold blank at this ⊢
        rw [List.all_cons, List.all_cons, this]

theorem written_indent (n : Nat) {s : Text} (h : '\\' ∉ s) :
    Written (indent (List.replicate n ' ') (replace quotes quoted s)) (indent (List.replicate n ' ') s) := by
  unfold indent
  rw [split_replace, drop_map_replace, ends_replace, trimEnd_spaces, List.map_map]
  refine Written.append ?_ ?_
  · have hmap : ∀ ls : List Text, ls.map ((fun l => (if blank l then [] else List.replicate n ' ') ++ l) ∘ replace quotes quoted) =
        ls.map fun l => (if blank l then [] else List.replicate n ' ') ++ replace quotes quoted l := by
      intro ls; refine List.map_congr_left fun l _ => ?_
      simp only [Function.comp, blank_replace]
    rw [hmap]
    have hmem : ∀ l ∈ dropEmptyLast (splitNl s), '\\' ∉ l := fun l hl hm => h ((split_infix (drop_mem hl)).subset hm)
    generalize dropEmptyLast (splitNl s) = ls at hmem
    have hone : ∀ l : Text, '\\' ∉ l → Written ((if blank l then [] else List.replicate n ' ') ++ replace quotes quoted l)
        ((if blank l then [] else List.replicate n ' ') ++ l) := by
      intro l hl
      refine Written.append (written_self ?_) (written_replace l.length l (Nat.le_refl _) hl)
      split
      · simp
      · intro hh; exact absurd (List.eq_of_mem_replicate hh) (by decide)
    induction ls with
    | nil => exact .nil
    | cons l ls ih =>
      cases ls with
      | nil => exact hone l (hmem l (by simp))
      | cons m ls =>
        have := ih fun x hx => hmem x (List.mem_cons_of_mem _ hx)
        exact (hone l (hmem l (by simp))).append (.char (by decide) this)
  · split
    · exact .char (by decide) .nil
    · exact .nil

theorem dedent_mem {s : Text} {c : Char} (h : c ∈ dedent s) (hc : c ≠ '\n') : c ∈ s := by
  rw [← join_drop (dedent s)] at h
  rcases List.mem_append.1 h with h | h
  · have : ∀ ls : List Text, c ∈ joinNl ls → ∃ l ∈ ls, c ∈ l := by
      intro ls
      induction ls with
      | nil => simp [joinNl]
      | cons l ls ih =>
        cases ls with
        | nil => simp [joinNl]
        | cons m ls =>
          rw [joinNl]
          intro h
          rcases List.mem_append.1 h with h | h
          · exact ⟨l, by simp, h⟩
          · rcases List.mem_cons.1 h with h | h
            · exact absurd h hc
            · obtain ⟨x, hx, hcx⟩ := ih h
              exact ⟨x, List.mem_cons_of_mem _ hx, hcx⟩
    obtain ⟨l, hl, hcl⟩ := this _ h
    exact (dedent_infix hl).subset hcl
  · split at h
    · simp at h; exact absurd h hc
    · simp at h

end Verif.Gen.Docs
