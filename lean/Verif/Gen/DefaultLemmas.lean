import Verif.Gen.Default
import Verif.Gen.DefaultSpec
/-
Lemmas about numbers and strings in generated text.
-/
namespace Verif.Gen.Default
open Verif.Meta

theorem digitVal_digitChar : ∀ n : Nat, n < 16 → digitVal n.digitChar = some n := by decide

theorem isDigitOf_digitChar {b n : Nat} (hb : b ≤ 16) (h : n < b) :
    isDigitOf b n.digitChar = true := by
  simp [isDigitOf, digitVal_digitChar n (by omega), h]

theorem mem_toDigits {b : Nat} (h2 : 2 ≤ b) (hb : b ≤ 16) (n : Nat) :
    ∀ c ∈ Nat.toDigits b n, isDigitOf b c = true := by
  induction n using Nat.strongRecOn with
  | _ n ih =>
    by_cases h : n < b
    · rw [Nat.toDigits_of_lt_base h]
      intro c hc
      simp only [List.mem_singleton] at hc
      subst hc
      exact isDigitOf_digitChar hb h
    · rw [Nat.toDigits_of_base_le (by omega) (by omega)]
      intro c hc
      rcases List.mem_append.mp hc with hc | hc
      · exact ih _ (Nat.div_lt_self (by omega) (by omega)) c hc
      · simp only [List.mem_singleton] at hc
        subst hc
        exact isDigitOf_digitChar hb (Nat.mod_lt _ (by omega))

theorem numFrom_append (b acc : Nat) (l₁ l₂ : List Char) :
    numFrom b acc (l₁ ++ l₂) = numFrom b (numFrom b acc l₁) l₂ := by
  induction l₁ generalizing acc with
  | nil => rfl
  | cons c l ih =>
    simp only [List.cons_append, numFrom]
    split <;> exact ih _

theorem numOf_toDigits {b : Nat} (h2 : 2 ≤ b) (hb : b ≤ 16) (n : Nat) :
    numOf b (Nat.toDigits b n) = n := by
  induction n using Nat.strongRecOn with
  | _ n ih =>
    by_cases h : n < b
    · rw [Nat.toDigits_of_lt_base h]
      simp [numOf, numFrom, digitVal_digitChar n (by omega)]
    · rw [Nat.toDigits_of_base_le (by omega) (by omega)]
      have := ih _ (Nat.div_lt_self (n := n) (k := b) (by omega) (by omega))
      have hm : n % b < b := Nat.mod_lt _ (by omega)
      simp only [numOf, numFrom_append] at this ⊢
      rw [this]
      simp only [numFrom, digitVal_digitChar (n % b) (by omega)]
      exact Nat.div_add_mod n b

/-- The text after a number does not go on with a digit. -/
def Ends (b : Nat) (rest : List Char) : Prop := ∀ c, rest.head? = some c → isDigitOf b c = false

theorem takeWhile_append_all {p : Char → Bool} {l rest : List Char} (h : ∀ c ∈ l, p c = true)
    (hr : ∀ c, rest.head? = some c → p c = false) :
    (l ++ rest).takeWhile p = l ∧ (l ++ rest).dropWhile p = rest := by
  induction l with
  | nil =>
    cases rest with
    | nil => simp
    | cons c cs =>
      have := hr c rfl
      simp [List.takeWhile, List.dropWhile, this]
  | cons a l ih =>
    have ha := h a (by simp)
    obtain ⟨h1, h2⟩ := ih (fun c hc => h c (by simp [hc]))
    simp [List.takeWhile, List.dropWhile, ha, h1, h2]

theorem scanDigits_toDigits {b : Nat} (h2 : 2 ≤ b) (hb : b ≤ 16) (n : Nat) {rest : List Char}
    (hr : Ends b rest) : scanDigits b (Nat.toDigits b n ++ rest) = some (n, rest) := by
  obtain ⟨ht, hd⟩ := takeWhile_append_all (mem_toDigits h2 hb n) hr
  simp only [scanDigits, ht, hd]
  rw [if_neg Nat.toDigits_ne_nil, numOf_toDigits h2 hb]

theorem digitChar_ne_zero : ∀ n : Nat, n < 16 → n ≠ 0 → n.digitChar ≠ '0' := by decide

theorem toDigits_head {n : Nat} (h : n ≠ 0) : (Nat.toDigits 10 n).head? ≠ some '0' := by
  induction n using Nat.strongRecOn with
  | _ n ih =>
    by_cases hn : n < 10
    · rw [Nat.toDigits_of_lt_base hn]
      simpa using digitChar_ne_zero n (by omega) h
    · rw [Nat.toDigits_of_base_le (by omega) (by omega)]
      have := ih (n / 10) (by omega) (by omega)
      have hne : Nat.toDigits 10 (n / 10) ≠ [] := Nat.toDigits_ne_nil
      cases hd : Nat.toDigits 10 (n / 10) with
      | nil => exact absurd hd hne
      | cons c cs =>
        rw [hd] at this
        simpa using this

theorem scanNat_dec (oct : Bool) (n : Nat) {rest : List Char} (hr : Ends 10 rest)
    (hx : rest.head? ≠ some 'x') (ho : rest.head? ≠ some 'o') :
    scanNat oct (Nat.toDigits 10 n ++ rest) = some (n, rest) := by
  by_cases hn : n = 0
  · subst hn
    show scanNat oct ('0' :: rest) = _
    cases rest with
    | nil => cases oct <;> decide
    | cons c cs =>
      have hc := hr c rfl
      simp only [List.head?_cons, ne_eq, Option.some.injEq] at hx ho
      simp [scanNat, hx, ho, hc]
  · have h := scanDigits_toDigits (b := 10) (by omega) (by omega) n hr
    have hh := toDigits_head hn
    cases hd : Nat.toDigits 10 n with
    | nil => exact absurd hd Nat.toDigits_ne_nil
    | cons c cs =>
      rw [hd] at h hh
      simp only [List.head?_cons, ne_eq, Option.some.injEq] at hh
      rw [← h]
      unfold scanNat
      split
      · rename_i heq
        simp only [List.cons_append, List.cons.injEq] at heq
        exact absurd heq.1 hh
      · rfl

theorem scanNat_hex (oct : Bool) (n : Nat) {rest : List Char} (hr : Ends 16 rest) :
    scanNat oct (fmtHex n ++ rest) = some (n, rest) := by
  simp only [fmtHex, List.cons_append, scanNat, if_true]
  exact scanDigits_toDigits (by omega) (by omega) n hr

theorem scanNat_oct (n : Nat) {rest : List Char} (hr : Ends 8 rest) :
    scanNat true (fmtOct n ++ rest) = some (n, rest) := by
  simp only [fmtOct, List.cons_append, scanNat, if_true]
  rw [if_neg (by decide)]
  exact scanDigits_toDigits (by omega) (by omega) n hr

theorem scanInt_nonneg {oct : Bool} {cs : List Char} {p : Nat × List Char}
    (h : scanNat oct cs = some p) : scanInt oct cs = some (false, p.1, p.2) := by
  unfold scanInt
  split
  · rename_i cs'
    have : scanNat oct ('-' :: cs') = none := by
      simp [scanNat, scanDigits, List.takeWhile, show isDigitOf 10 '-' = false by decide]
    rw [this] at h; cases h
  · simp [h]

theorem scanInt_dec (oct : Bool) (z : Int) {rest : List Char} (hr : Ends 10 rest)
    (hx : rest.head? ≠ some 'x') (ho : rest.head? ≠ some 'o') :
    scanInt oct (fmtInt z ++ rest) = some (decide (z < 0), z.natAbs, rest) := by
  have h := scanNat_dec oct z.natAbs hr hx ho
  unfold fmtInt
  by_cases hz : z < 0
  · simp [hz, scanInt, h]
  · simp only [hz, if_false, decide_false]
    exact scanInt_nonneg h

theorem signed_natAbs (z : Int) : signed (decide (z < 0)) z.natAbs = z := by
  unfold signed
  by_cases h : z < 0 <;> simp [h] <;> omega

/-! ### Strings -/

theorem StrRules.body_cons (r : StrRules) (c : Char) (cs : List Char) : r.body (c :: cs) =
    if c = '"' then (if cs = [] then some [] else none)
    else if c = '\\' then
      match cs with
      | [] => none
      | e :: cs' =>
        match r.escape e with
        | .char x => (r.body cs').map (x :: ·)
        | .both => (r.body cs').map fun s => '\\' :: e :: s
        | .other => none
    else if r.special c cs then none
    else (r.body cs).map (c :: ·) := by
  rw [StrRules.body.eq_def]
  cases cs <;> rfl

theorem StrRules.safe_cons (r : StrRules) (c : Char) (cs : List Char) : r.Safe (c :: cs) =
    (c ≠ '"' ∧
    if c = '\\' then
      match cs with
      | [] => False
      | e :: cs' => r.escape e = .both ∧ r.Safe cs'
    else r.special c (cs ++ ['"']) = false ∧ r.Safe cs) := by
  rw [StrRules.Safe.eq_def]
  cases cs <;> rfl

theorem StrRules.body_nil (r : StrRules) : r.body [] = none := by rw [StrRules.body.eq_def]
theorem StrRules.safe_nil (r : StrRules) : r.Safe [] = True := by rw [StrRules.Safe.eq_def]

theorem StrRules.body_length (r : StrRules) : ∀ (n : Nat) (s t : List Char), s.length ≤ n →
    r.body (s ++ ['"']) = some t → t.length ≤ s.length := by
  intro n
  induction n with
  | zero =>
    intro s t hs h
    cases s with
    | nil => simp [StrRules.body_cons, StrRules.body_nil] at h; subst h; simp
    | cons => simp at hs
  | succ n ih =>
    intro s t hs h
    cases s with
    | nil => simp [StrRules.body_cons, StrRules.body_nil] at h; subst h; simp
    | cons c cs =>
      simp only [List.cons_append, StrRules.body_cons] at h
      simp only [List.length_cons] at hs
      split at h
      · split at h
        · simp at h; subst h; simp
        · cases h
      · split at h
        · cases cs with
          | nil =>
            simp only [List.nil_append] at h
            split at h <;> simp [StrRules.body_cons, StrRules.body_nil] at h
          | cons e cs' =>
            simp only [List.cons_append] at h
            simp only [List.length_cons] at hs
            split at h
            · simp only [Option.map_eq_some_iff] at h
              obtain ⟨u, hu, h⟩ := h
              have := ih cs' u (by omega) hu
              subst h; simp; omega
            · simp only [Option.map_eq_some_iff] at h
              obtain ⟨u, hu, h⟩ := h
              have := ih cs' u (by omega) hu
              subst h; simp; omega
            · cases h
        · split at h
          · cases h
          · simp only [Option.map_eq_some_iff] at h
            obtain ⟨u, hu, h⟩ := h
            have := ih cs u (by omega) hu
            subst h; simp; omega

theorem StrRules.body_iff (r : StrRules) : ∀ (n : Nat) (s : List Char), s.length ≤ n →
    (r.body (s ++ ['"']) = some s ↔ r.Safe s) := by
  intro n
  induction n with
  | zero =>
    intro s hs
    cases s with
    | nil => simp [StrRules.body_cons, StrRules.safe_nil]
    | cons => simp at hs
  | succ n ih =>
    intro s hs
    cases s with
    | nil => simp [StrRules.body_cons, StrRules.safe_nil]
    | cons c cs =>
      simp only [List.length_cons] at hs
      simp only [List.cons_append, StrRules.body_cons, StrRules.safe_cons]
      by_cases hq : c = '"'
      · simp [hq]
      · rw [if_neg hq]
        by_cases hb : c = '\\'
        · subst hb
          simp only [if_true]
          cases cs with
          | nil =>
            simp only [List.nil_append]
            constructor
            · intro h
              split at h <;> simp [StrRules.body_cons, StrRules.body_nil] at h
            · rintro ⟨_, h⟩; exact h.elim
          | cons e cs' =>
            simp only [List.length_cons] at hs
            simp only [List.cons_append]
            have hi := ih cs' (by omega)
            cases he : r.escape e with
            | char x =>
              simp only [reduceCtorEq, false_and, and_false, iff_false]
              intro h
              simp only [Option.map_eq_some_iff] at h
              obtain ⟨u, hu, h⟩ := h
              have hl := r.body_length _ _ u (Nat.le_refl _) hu
              have := congrArg List.length h
              simp at this
              omega
            | both =>
              simp only [true_and]
              rw [← hi]
              simp
            | other => simp
        · rw [if_neg hb]
          have hi := ih cs (by omega)
          cases hsp : r.special c (cs ++ ['"']) with
          | true => simp [hb, hsp]
          | false =>
            simp only [if_neg hb, Bool.false_eq_true, if_false, hq, ne_eq, not_false_eq_true, true_and]
            rw [← hi]
            simp

theorem StrRules.eval_quote (r : StrRules) (s : String) :
    r.eval (quote s) = some (.str s) ↔ r.Safe s.toList := by
  have := r.body_iff _ s.toList (Nat.le_refl _)
  rw [← this]
  simp only [quote, StrRules.eval, List.cons_append, Option.map_eq_some_iff, Val.str.injEq]
  constructor
  · rintro ⟨t, ht, rfl⟩
    simpa using ht
  · intro h
    exact ⟨_, h, by simp⟩

end Verif.Gen.Default

namespace Verif.Gen.Default
open Verif.Meta

/-! ### Integers in every language -/

/-- The value of a literal with a radix, as the generators write it. -/
theorem bits64_nonneg {z : Int} (h0 : 0 ≤ z) (h1 : z < 2 ^ 64) : bits64 z = z.toNat := by
  unfold bits64
  rw [Int.emod_eq_of_lt h0 h1]

/-- A text is a number: how it is read, whatever follows. -/
structure NumText (oct : Bool) (text : List Char) (z : Int) (rest : List Char) : Prop where
  scan : ∃ neg n, scanInt oct (text ++ rest) = some (neg, n, rest) ∧ signed neg n = z ∧ n = z.natAbs
  head : ∃ c, text.head? = some c ∧ (c = '-' ∨ isDigitOf 10 c = true)

/-- What may follow a number. -/
structure After (rest : List Char) : Prop where
  hex : Ends 16 rest
  x : rest.head? ≠ some 'x'
  o : rest.head? ≠ some 'o'

theorem Ends.mono {b : Nat} {rest : List Char} (h : Ends 16 rest) (hb : b ≤ 16) : Ends b rest := by
  intro c hc
  have := h c hc
  unfold isDigitOf at this ⊢
  split <;> simp_all <;> omega

theorem toDigits_headDigit (n : Nat) :
    ∃ c, (Nat.toDigits 10 n).head? = some c ∧ isDigitOf 10 c = true := by
  cases hd : Nat.toDigits 10 n with
  | nil => exact absurd hd Nat.toDigits_ne_nil
  | cons c cs =>
    exact ⟨c, rfl, mem_toDigits (b := 10) (by omega) (by omega) n c (by rw [hd]; simp)⟩

theorem numText_int (oct : Bool) (z : Int) {rest : List Char} (h : After rest) :
    NumText oct (fmtInt z) z rest := by
  refine ⟨⟨_, _, scanInt_dec oct z (h.hex.mono (by omega)) h.x h.o, signed_natAbs z, rfl⟩, ?_⟩
  unfold fmtInt
  split
  · exact ⟨'-', rfl, .inl rfl⟩
  · obtain ⟨c, h1, h2⟩ := toDigits_headDigit z.natAbs
    exact ⟨c, h1, .inr h2⟩

theorem numText_nat (oct : Bool) (n : Nat) {rest : List Char} (h : After rest) :
    NumText oct (Nat.toDigits 10 n) n rest := by
  refine ⟨⟨false, n, scanInt_nonneg (scanNat_dec oct n (h.hex.mono (by omega)) h.x h.o), rfl, rfl⟩, ?_⟩
  obtain ⟨c, h1, h2⟩ := toDigits_headDigit n
  exact ⟨c, h1, .inr h2⟩

theorem numText_hex (oct : Bool) (n : Nat) {rest : List Char} (h : After rest) :
    NumText oct (fmtHex n) n rest :=
  ⟨⟨false, n, scanInt_nonneg (scanNat_hex oct n h.hex), rfl, rfl⟩, ⟨'0', rfl, .inr (by decide)⟩⟩

theorem numText_oct (n : Nat) {rest : List Char} (h : After rest) :
    NumText true (fmtOct n) n rest :=
  ⟨⟨false, n, scanInt_nonneg (scanNat_oct n (h.hex.mono (by omega))), rfl, rfl⟩,
    ⟨'0', rfl, .inr (by decide)⟩⟩

theorem after_nil : After [] := ⟨by simp [Ends], by simp, by simp⟩
theorem after_cons {c : Char} {cs : List Char} (h1 : isDigitOf 16 c = false) (h2 : c ≠ 'x')
    (h3 : c ≠ 'o') : After (c :: cs) := ⟨by simp [Ends, h1], by simpa using h2, by simpa using h3⟩

theorem asInt_range {ty : MTy} {z : Int} {v : Val} (h : asInt ty z = some v) :
    v = .int z ∧ ∃ lo hi, intRange ty = some (lo, hi) ∧ lo ≤ z ∧ z < hi := by
  unfold asInt at h
  split at h
  · rename_i lo hi hr
    split at h
    · rename_i hb
      cases h
      exact ⟨rfl, lo, hi, hr, hb.1, hb.2⟩
    · cases h
  · cases h

theorem asInt_lt {ty : MTy} {z : Int} {v : Val} (h : asInt ty z = some v) :
    -2 ^ 63 ≤ z ∧ z < 2 ^ 64 := by
  obtain ⟨-, lo, hi, hr, h1, h2⟩ := asInt_range h
  unfold intRange at hr
  split at hr <;> simp only [Option.some.injEq, Prod.mk.injEq, reduceCtorEq] at hr <;>
    (obtain ⟨rfl, rfl⟩ := hr; constructor <;> omega)

/-! ### Kotlin -/

namespace Kotlin

/-- The suffix of a number. -/
def suffix : MTy → List Char
  | .int64 => ['L']
  | .uint8 | .uint16 | .uint32 => ['u']
  | .uint64 => ['u', 'L']
  | _ => []

theorem after_suffix (ty : MTy) : After (suffix ty) := by
  unfold suffix
  split
  · exact after_cons (by decide) (by decide) (by decide)
  · exact after_cons (by decide) (by decide) (by decide)
  · exact after_cons (by decide) (by decide) (by decide)
  · exact after_cons (by decide) (by decide) (by decide)
  · exact after_cons (by decide) (by decide) (by decide)
  · exact after_nil

theorem typedNumber_int {ty : MTy} {p : Int × Int} (h : intRange ty = some p) (num : List Char) :
    typedNumber ty num = some (num ++ suffix ty) := by
  cases ty <;> simp [intRange] at h <;> simp [typedNumber, unwrapOptional, suffix]

theorem eval_int {ty : MTy} {p : Int × Int} (h : intRange ty = some p) (cs : List Char) :
    eval ty cs = int ty cs := by
  cases ty <;> simp [intRange] at h <;> rfl

theorem int_text {ty : MTy} {z : Int} {v : Val} {num : List Char} (hv : asInt ty z = some v)
    (hz : z ≠ -2 ^ 63) (hn : NumText false num z (suffix ty)) :
    int ty (num ++ suffix ty) = some v := by
  obtain ⟨⟨neg, n, hs, hsg, hnat⟩, -⟩ := hn
  obtain ⟨-, lo, hi, hr, h1, h2⟩ := asInt_range hv
  unfold int
  rw [hs]
  dsimp only
  rw [hsg, if_pos, hv]
  cases ty <;> simp [intRange] at hr <;> (obtain ⟨rfl, rfl⟩ := hr; simp [suffix]) <;> omega

end Kotlin

end Verif.Gen.Default
