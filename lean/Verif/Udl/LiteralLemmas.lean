import Verif.Gen.DefaultLemmas
import Verif.Udl.LiteralSpec
/-
Lemmas about integer literals in UDL.
-/
namespace Verif.Udl
open Verif.Meta Verif.Gen.Default

theorem toDigit_eq (b : Nat) (c : Char) :
    toDigit b c = match digitVal c with | some d => if d < b then some d else none | none => none := by
  have h1 : ('0' ≤ c ∧ c ≤ '9') ↔ (48 ≤ c.toNat ∧ c.toNat ≤ 57) := Iff.rfl
  have h2 : ('a' ≤ c ∧ c ≤ 'f') ↔ (97 ≤ c.toNat ∧ c.toNat ≤ 102) := Iff.rfl
  have h3 : ('A' ≤ c ∧ c ≤ 'F') ↔ (65 ≤ c.toNat ∧ c.toNat ≤ 70) := Iff.rfl
  unfold toDigit digitVal
  simp only [h1, h2, h3]
  have e1 : ∀ n : Nat, 97 ≤ n → n - 97 + 10 = n - 87 := by omega
  have e2 : ∀ n : Nat, 65 ≤ n → n - 65 + 10 = n - 55 := by omega
  by_cases a1 : 48 ≤ c.toNat ∧ c.toNat ≤ 57
  · simp [a1]
  · by_cases a2 : 97 ≤ c.toNat ∧ c.toNat ≤ 102
    · simp [a1, a2, e1]
    · by_cases a3 : 65 ≤ c.toNat ∧ c.toNat ≤ 70
      · simp [a1, a2, a3, e2]
      · simp [a1, a2, a3]

theorem isDigit_eq (b : Nat) : isDigit b = isDigitOf b := by
  funext c
  unfold isDigit isDigitOf
  rw [toDigit_eq]
  cases digitVal c with
  | none => rfl
  | some d => by_cases h : d < b <;> simp [h]

theorem numFrom_ge {b : Nat} (hb : 1 ≤ b) (acc : Nat) (cs : List Char) : acc ≤ numFrom b acc cs := by
  induction cs generalizing acc with
  | nil => exact Nat.le_refl _
  | cons c cs ih =>
    unfold numFrom
    split
    · refine Nat.le_trans ?_ (ih _)
      have : 1 * acc ≤ b * acc := Nat.mul_le_mul_right _ hb
      omega
    · exact ih _

theorem fromDigits_eq {b max : Nat} (hb : 1 ≤ b) (acc : Nat) (cs : List Char)
    (hall : cs.all (isDigitOf b) = true) (hm : numFrom b acc cs ≤ max) :
    fromDigits b max acc cs = some (numFrom b acc cs) := by
  induction cs generalizing acc with
  | nil => rfl
  | cons c cs ih =>
    simp only [List.all_cons, Bool.and_eq_true] at hall
    obtain ⟨hc, hcs⟩ := hall
    unfold isDigitOf at hc
    cases hd : digitVal c with
    | none => simp [hd] at hc
    | some d =>
      simp only [hd, decide_eq_true_eq] at hc
      unfold fromDigits
      rw [toDigit_eq]
      simp only [hd, hc, if_true]
      simp only [numFrom, hd] at hm ⊢
      have h1 := numFrom_ge hb (b * acc + d) cs
      rw [Nat.mul_comm acc b]
      rw [if_pos (by omega)]
      exact ih _ hcs hm

theorem fromDigits_some {b max : Nat} (acc : Nat) (cs : List Char) {n : Nat}
    (h : fromDigits b max acc cs = some n) (ha : acc ≤ max) :
    cs.all (isDigitOf b) = true ∧ n = numFrom b acc cs ∧ n ≤ max := by
  induction cs generalizing acc with
  | nil => simp [fromDigits] at h; subst h; simp [numFrom, ha]
  | cons c cs ih =>
    unfold fromDigits at h
    rw [toDigit_eq] at h
    cases hd : digitVal c with
    | none => simp [hd] at h
    | some d =>
      simp only [hd] at h
      by_cases hb : d < b
      · simp only [hb, if_true] at h
        split at h
        · rename_i hle
          obtain ⟨h1, h2, h3⟩ := ih _ h hle
          refine ⟨by simp [isDigitOf, hd, hb, h1], ?_, h3⟩
          rw [h2]; simp [numFrom, hd, Nat.mul_comm]
        · cases h
      · simp [hb] at h

theorem toLower_digit {c : Char} (h : isDigitOf 16 c = true) :
    digitVal c.toLower = digitVal c := by
  unfold isDigitOf at h
  by_cases hu : 65 ≤ c.toNat ∧ c.toNat ≤ 70
  · have key : ∀ n : Fin 6, digitVal (Char.ofNat (65 + n.val)).toLower = digitVal (Char.ofNat (65 + n.val)) := by
      decide
    have := key ⟨c.toNat - 65, by omega⟩
    simp only [show 65 + (c.toNat - 65) = c.toNat by omega, Char.ofNat_toNat] at this
    exact this
  · have hd : digitVal c ≠ none := by intro hn; simp [hn] at h
    have hup : ¬ (65 ≤ c.toNat ∧ c.toNat ≤ 90) := by
      intro hup
      apply hd
      have h1 : ¬ ('0' ≤ c ∧ c ≤ '9') := fun hh => by
        have : 48 ≤ c.toNat ∧ c.toNat ≤ 57 := hh
        omega
      have h2 : ¬ ('a' ≤ c ∧ c ≤ 'f') := fun hh => by
        have : 97 ≤ c.toNat ∧ c.toNat ≤ 102 := hh
        omega
      have h3 : ¬ ('A' ≤ c ∧ c ≤ 'F') := fun hh => hu hh
      simp [digitVal, h1, h2, h3]
    have : c.toLower = c := by
      unfold Char.toLower
      rw [dif_neg]
      intro hh
      exact hup hh
    rw [this]

theorem isDigitOf_toLower {b : Nat} {c : Char} (h : isDigitOf 16 c = true) :
    isDigitOf b c.toLower = isDigitOf b c := by
  unfold isDigitOf
  rw [toLower_digit h]

theorem isDigitOf_mono {b : Nat} (hb : b ≤ 16) {c : Char} (h : isDigitOf b c = true) :
    isDigitOf 16 c = true := by
  unfold isDigitOf at h ⊢
  split <;> simp_all
  omega

theorem all_mono {b : Nat} (hb : b ≤ 16) {cs : List Char} (h : cs.all (isDigitOf b) = true) :
    cs.all (isDigitOf 16) = true := by
  simp only [List.all_eq_true] at h ⊢
  exact fun c hc => isDigitOf_mono hb (h c hc)

theorem numFrom_toLower {b : Nat} (acc : Nat) (cs : List Char) (h : cs.all (isDigitOf 16) = true) :
    numFrom b acc (cs.map Char.toLower) = numFrom b acc cs := by
  induction cs generalizing acc with
  | nil => rfl
  | cons c cs ih =>
    simp only [List.all_cons, Bool.and_eq_true] at h
    simp only [List.map_cons, numFrom, toLower_digit h.1]
    split <;> exact ih _ h.2

theorem all_toLower {b : Nat} (hb : b ≤ 16) {cs : List Char} (h : cs.all (isDigitOf b) = true) :
    (cs.map Char.toLower).all (isDigitOf b) = true := by
  simp only [List.all_eq_true, List.mem_map, forall_exists_index, and_imp, forall_apply_eq_imp_iff₂] at h ⊢
  intro c hc
  rw [isDigitOf_toLower (isDigitOf_mono hb (h c hc))]
  exact h c hc

/-! ### The parts of a literal -/

/-- The text after the sign, its radix and its digits. -/
inductive View : Text → Radix → Text → Prop
  | dec {c cs} : c ≠ '0' → (c :: cs).all (isDigitOf 10) = true → View (c :: cs) .decimal (c :: cs)
  | hex {ds} : ds.all (isDigitOf 16) = true → View ('0' :: 'x' :: ds) .hexadecimal ds
  | oct {cs} : cs.all (isDigitOf 8) = true → View ('0' :: cs) .octal ('0' :: cs)

theorem dropWhile_nil {p : Char → Bool} {l : List Char} (h : l.dropWhile p = []) :
    l.all p = true ∧ l.takeWhile p = l := by
  induction l with
  | nil => simp
  | cons c cs ih =>
    unfold List.dropWhile at h
    split at h
    · rename_i hc
      obtain ⟨h1, h2⟩ := ih h
      simp [hc, h1, List.takeWhile, h2]
    · cases h

theorem all_dropWhile {p : Char → Bool} {l : List Char} (h : l.all p = true) :
    l.dropWhile p = [] ∧ l.takeWhile p = l := by
  induction l with
  | nil => simp
  | cons c cs ih =>
    simp only [List.all_cons, Bool.and_eq_true] at h
    obtain ⟨h1, h2⟩ := ih h.2
    simp [List.dropWhile, List.takeWhile, h.1, h1, h2]

theorem lex_view {sign body string : Text} {r : Radix}
    (h : lexUnsigned sign body = some (r, string, [])) :
    string = sign ++ body ∧
      ((∃ ds, View body r ds) ∨ ∃ ds, body = '0' :: 'X' :: ds ∧ r = .hexadecimal) := by
  unfold lexUnsigned at h
  split at h
  · cases h
  · rename_i c cs
    split at h
    · rename_i hc
      subst hc
      split at h
      · rename_i x ds
        split at h
        · rename_i hx
          simp only [Option.some.injEq, Prod.mk.injEq] at h
          obtain ⟨hr, hs, hd⟩ := h
          rw [isDigit_eq] at hs hd
          obtain ⟨h1, h2⟩ := dropWhile_nil hd
          rw [h2] at hs
          refine ⟨hs.symm, ?_⟩
          rcases hx with hx | hx
          · rw [hx, ← hr]; exact .inl ⟨ds, .hex h1⟩
          · rw [hx]; exact .inr ⟨ds, rfl, hr.symm⟩
        · simp only [Option.some.injEq, Prod.mk.injEq] at h
          obtain ⟨hr, hs, hd⟩ := h
          rw [isDigit_eq] at hs hd
          obtain ⟨h1, h2⟩ := dropWhile_nil hd
          rw [h2] at hs
          exact ⟨hs.symm, .inl ⟨_, by rw [← hr]; exact .oct h1⟩⟩
      · simp only [Option.some.injEq, Prod.mk.injEq] at h
        obtain ⟨hr, hs, -⟩ := h
        exact ⟨hs.symm, .inl ⟨_, by rw [← hr]; exact .oct rfl⟩⟩
    · rename_i hc
      split at h
      · rename_i hdig
        simp only [Option.some.injEq, Prod.mk.injEq] at h
        obtain ⟨hr, hs, hd⟩ := h
        rw [isDigit_eq] at hs hd hdig
        obtain ⟨h1, h2⟩ := dropWhile_nil hd
        rw [h2] at hs
        exact ⟨hs.symm, .inl ⟨_, by rw [← hr]; exact .dec hc (by simp [hdig, h1])⟩⟩
      · cases h

theorem View.lex {body ds : Text} {r : Radix} (h : View body r ds) (sign : Text) :
    lexUnsigned sign body = some (r, sign ++ body, []) := by
  cases h with
  | dec hc hall =>
    simp only [List.all_cons, Bool.and_eq_true] at hall
    obtain ⟨h1, h2⟩ := all_dropWhile hall.2
    simp [lexUnsigned, hc, isDigit_eq, hall.1, h1, h2]
  | hex hall =>
    obtain ⟨h1, h2⟩ := all_dropWhile hall
    simp [lexUnsigned, isDigit_eq, h1, h2]
  | oct hall =>
    rename_i cs
    obtain ⟨h1, h2⟩ := all_dropWhile hall
    cases cs with
    | nil => simp [lexUnsigned]
    | cons x xs =>
      have hx : ¬ (x = 'x' ∨ x = 'X') := by
        simp only [List.all_cons, Bool.and_eq_true] at hall
        rintro (rfl | rfl) <;> exact absurd hall.1 (by decide)
      simp only [lexUnsigned, if_true]
      rw [if_neg hx, isDigit_eq, h1, h2]

theorem trim0x_digits {ds : Text} (h : ds.all (isDigitOf 16) = true) : trim0x ds = ds := by
  unfold trim0x
  split
  · exfalso
    simp only [List.all_cons, Bool.and_eq_true] at h
    exact absurd h.2.1 (by decide)
  · rfl

theorem View.all {body ds : Text} {r : Radix} (h : View body r ds) :
    ds.all (isDigitOf (radixNum r)) = true := by
  cases h with
  | dec _ h => exact h
  | hex h => exact h
  | oct h => simp [radixNum, show isDigitOf 8 '0' = true by decide]; simpa using h

theorem radixNum_le (r : Radix) : radixNum r ≤ 16 ∧ 1 ≤ radixNum r := by cases r <;> decide

theorem View.trim {body ds : Text} {r : Radix} (h : View body r ds) : trim0x body = ds := by
  cases h with
  | dec _ h => exact trim0x_digits (all_mono (by omega) h)
  | hex h => rw [trim0x]; exact trim0x_digits h
  | oct h =>
    exact trim0x_digits (by simp [show isDigitOf 16 '0' = true by decide]; simpa using all_mono (by omega) h)

theorem View.nat {body ds : Text} {r : Radix} (h : View body r ds) (hne : ds ≠ []) :
    natText body = some (numOf (radixNum r) ds) := by
  cases h with
  | dec hc h => simp only [natText]; rw [if_neg hc, if_pos h]; rfl
  | hex h => simp only [natText, if_true, true_or]; rw [if_pos ⟨hne, h⟩]; rfl
  | oct h =>
    rename_i cs
    cases cs with
    | nil => rfl
    | cons x xs =>
      have hx : ¬ (x = 'x' ∨ x = 'X') := by
        simp only [List.all_cons, Bool.and_eq_true] at h
        rintro (rfl | rfl) <;> exact absurd h.1 (by decide)
      simp only [natText, if_true]
      rw [if_neg hx, if_pos h]
      rfl

theorem view_of_nat {body : Text} {n : Nat} (h : natText body = some n)
    (hX : body.take 2 ≠ ['0', 'X']) : ∃ r ds, View body r ds ∧ ds ≠ [] := by
  unfold natText at h
  split at h
  · cases h
  · rename_i c cs
    split at h
    · rename_i hc
      subst hc
      split at h
      · exact ⟨_, _, .oct rfl, by simp⟩
      · rename_i x ds
        split at h
        · rename_i hx
          rcases hx with hx | hx
          · subst hx
            split at h
            · rename_i hd
              exact ⟨_, _, .hex hd.2, hd.1⟩
            · cases h
          · subst hx; exact absurd rfl hX
        · split at h
          · rename_i hd
            exact ⟨_, _, .oct hd, by simp⟩
          · cases h
    · rename_i hc
      split at h
      · rename_i hd
        exact ⟨_, _, .dec hc hd, by simp⟩
      · cases h

/-! ### `from_str_radix` -/

theorem u64_digits {b : Nat} {cs : Text} (hne : cs ≠ []) (hall : cs.all (isDigitOf 16) = true) :
    u64FromStr b cs = fromDigits b (2 ^ 64 - 1) 0 cs := by
  unfold u64FromStr
  split
  · exact absurd rfl hne
  · exact absurd hall (by decide)
  · simp only [List.all_cons, Bool.and_eq_true] at hall; exact absurd hall.1 (by decide)
  · rfl

theorem i64_digits {b : Nat} {cs : Text} (hne : cs ≠ []) (hall : cs.all (isDigitOf 16) = true) :
    i64FromStr b cs = (fromDigits b (2 ^ 63 - 1) 0 cs).map fun (n : Nat) => (n : Int) := by
  unfold i64FromStr
  split
  · exact absurd rfl hne
  · exact absurd hall (by decide)
  · exact absurd hall (by decide)
  · simp only [List.all_cons, Bool.and_eq_true] at hall; exact absurd hall.1 (by decide)
  · simp only [List.all_cons, Bool.and_eq_true] at hall; exact absurd hall.1 (by decide)
  · rfl

theorem i64_minus {b : Nat} {cs : Text} (hne : cs ≠ []) :
    i64FromStr b ('-' :: cs) = (fromDigits b (2 ^ 63) 0 cs).map fun (n : Nat) => -(n : Int) := by
  cases cs with
  | nil => exact absurd rfl hne
  | cons c cs => rfl

theorem u64_minus {b : Nat} {cs : Text} : u64FromStr b ('-' :: cs) = none := by
  simp [u64FromStr, fromDigits, toDigit]

/-- Unsigned integer types. -/
def isUInt : MTy → Bool
  | .uint8 | .uint16 | .uint32 | .uint64 => true
  | _ => false

/-- Signed integer types. -/
def isSInt : MTy → Bool
  | .int8 | .int16 | .int32 | .int64 => true
  | _ => false

theorem convertInteger_some {r : Radix} {string : Text} {ty : MTy} {l : MLit}
    (h : convertInteger r string ty = some l) :
    (isSInt ty = true ∧ ∃ z, i64FromStr (radixNum r) (normalise string) = some z ∧
        l = .int z (destRadix r string) ty) ∨
    (isUInt ty = true ∧ ∃ n, u64FromStr (radixNum r) (normalise string) = some n ∧
        l = .uint n (destRadix r string) ty) := by
  unfold convertInteger at h
  split at h <;> first
  | (cases h; done)
  | (simp only [Option.map_eq_some_iff] at h
     obtain ⟨a, h1, h2⟩ := h
     first
     | exact .inl ⟨rfl, a, h1, h2.symm⟩
     | exact .inr ⟨rfl, a, h1, h2.symm⟩)

theorem fromDigits_X {max : Nat} {ds : Text} :
    fromDigits 16 max 0 ((('0' :: 'X' :: ds)).map Char.toLower) = none := by
  simp only [List.map_cons, show ('0').toLower = '0' by decide, show ('X').toLower = 'x' by decide]
  simp [fromDigits, show toDigit 16 '0' = some 0 by decide, show toDigit 16 'x' = none by decide]

theorem lower_minus : ('-').toLower = '-' := by decide

/-- The sign and the text after it. -/
theorem sign_cases (text : Text) :
    (∃ body, text = '-' :: body ∧ lexInt text = lexUnsigned ['-'] body ∧
      intText text = (natText body).map fun (n : Nat) => -(n : Int)) ∨
    (text.head? ≠ some '-' ∧ lexInt text = lexUnsigned [] text ∧
      intText text = (natText text).map fun (n : Nat) => (n : Int)) := by
  cases text with
  | nil => exact .inr ⟨by simp, rfl, rfl⟩
  | cons c cs =>
    by_cases hc : c = '-'
    · subst hc
      exact .inl ⟨cs, rfl, rfl, rfl⟩
    · refine .inr ⟨by simpa using hc, by simp [lexInt, hc], ?_⟩
      unfold intText
      split
      · rename_i heq; simp at heq; exact absurd heq.1 hc
      · rfl

theorem normalise_pos {text : Text} (h : text.head? ≠ some '-') :
    normalise text = (trim0x text).map Char.toLower := by
  unfold normalise
  split
  · exact absurd rfl h
  · rfl

theorem lowered {ds : Text} {r : Radix} (h : ds.all (isDigitOf (radixNum r)) = true) {max : Nat}
    {n : Nat} (hf : fromDigits (radixNum r) max 0 (ds.map Char.toLower) = some n) :
    n = numOf (radixNum r) ds ∧ n ≤ max := by
  obtain ⟨-, h2, h3⟩ := fromDigits_some 0 _ hf (Nat.zero_le _)
  rw [numFrom_toLower _ _ (all_mono (radixNum_le r).1 h)] at h2
  exact ⟨h2, h3⟩

/-- The number in the metadata is the number written. -/
theorem convertIntText_sound {text : Text} {ty : MTy} {l : MLit}
    (h : convertIntText text ty = some l) :
    ∃ z r, intText text = some z ∧ (0 ≤ z ∨ r = .decimal) ∧
      ((isSInt ty = true ∧ l = .int z r ty ∧ -2 ^ 63 ≤ z ∧ z < 2 ^ 63) ∨
       (isUInt ty = true ∧ ∃ n : Nat, z = n ∧ n < 2 ^ 64 ∧ l = .uint n r ty)) := by
  unfold convertIntText at h
  split at h
  · rename_i r string hlex
    rcases sign_cases text with ⟨body, rfl, hl, hi⟩ | ⟨hhead, hl, hi⟩
    · rw [hl] at hlex
      obtain ⟨hs, hv⟩ := lex_view hlex
      subst hs
      simp only [List.cons_append, List.nil_append] at h
      have hnorm : normalise ('-' :: body) = '-' :: (trim0x body).map Char.toLower := by
        simp [normalise, lower_minus]
      have hdest : destRadix r ('-' :: body) = .decimal := by simp [destRadix]
      rcases convertInteger_some h with ⟨hs, z, hz, hl⟩ | ⟨-, n, hn, -⟩
      · rw [hnorm] at hz
        rw [hdest] at hl
        rcases hv with ⟨ds, hv⟩ | ⟨ds, hb, hr⟩
        · rw [hv.trim] at hz
          by_cases hne : ds = []
          · subst hne; simp [i64FromStr] at hz
          · rw [i64_minus (by simpa using hne)] at hz
            simp only [Option.map_eq_some_iff] at hz
            obtain ⟨n, hn, hz⟩ := hz
            obtain ⟨h1, h2⟩ := lowered hv.all hn
            refine ⟨z, .decimal, ?_, .inr rfl, .inl ⟨hs, hl, ?_, ?_⟩⟩
            · rw [hi, hv.nat hne, ← h1, ← hz]; rfl
            · omega
            · omega
        · subst hb; subst hr
          have ht : trim0x ('0' :: 'X' :: ds) = '0' :: 'X' :: ds := by simp [trim0x]
          rw [ht, i64_minus (by simp)] at hz
          simp only [radixNum, fromDigits_X] at hz
          simp at hz
      · rw [hnorm, u64_minus] at hn; cases hn
    · rw [hl] at hlex
      obtain ⟨hs, hv⟩ := lex_view hlex
      simp only [List.nil_append] at hs; subst hs
      have hnorm := normalise_pos hhead
      rcases hv with ⟨ds, hv⟩ | ⟨ds, hb, hr⟩
      · have hall16 : (ds.map Char.toLower).all (isDigitOf 16) = true :=
          all_toLower (Nat.le_refl _) (all_mono (radixNum_le r).1 hv.all)
        rcases convertInteger_some h with ⟨hs, z, hz, hl⟩ | ⟨hs, n, hn, hl⟩
        · rw [hnorm, hv.trim] at hz
          by_cases hne : ds = []
          · subst hne; simp [i64FromStr] at hz
          · rw [i64_digits (by simpa using hne) hall16] at hz
            simp only [Option.map_eq_some_iff] at hz
            obtain ⟨n, hn, hz⟩ := hz
            obtain ⟨h1, h2⟩ := lowered hv.all hn
            refine ⟨z, _, ?_, .inl (by omega), .inl ⟨hs, hl, ?_, ?_⟩⟩
            · rw [hi, hv.nat hne, ← h1, ← hz]; rfl
            · omega
            · omega
        · rw [hnorm, hv.trim] at hn
          by_cases hne : ds = []
          · subst hne; simp [u64FromStr] at hn
          · rw [u64_digits (by simpa using hne) hall16] at hn
            obtain ⟨h1, h2⟩ := lowered hv.all hn
            refine ⟨n, _, ?_, .inl (by omega), .inr ⟨hs, n, rfl, by omega, hl⟩⟩
            rw [hi, hv.nat hne, ← h1]; rfl
      · subst hb; subst hr
        have ht : trim0x ('0' :: 'X' :: ds) = '0' :: 'X' :: ds := by simp [trim0x]
        have hlow : ('0' :: 'X' :: ds).map Char.toLower = '0' :: 'x' :: ds.map Char.toLower := by
          simp [show ('0').toLower = '0' by decide, show ('X').toLower = 'x' by decide]
        exfalso
        rcases convertInteger_some h with ⟨-, z, hz, -⟩ | ⟨-, n, hn, -⟩
        · rw [hnorm, ht, hlow] at hz
          simp [i64FromStr, radixNum, fromDigits, show toDigit 16 '0' = some 0 by decide,
            show toDigit 16 'x' = none by decide] at hz
        · rw [hnorm, ht, hlow] at hn
          simp [u64FromStr, radixNum, fromDigits, show toDigit 16 '0' = some 0 by decide,
            show toDigit 16 'x' = none by decide] at hn
  · cases h

/-- A number that belongs to the type is accepted, unless it is written with `0X` or is unsigned with a
minus sign. -/
theorem convertIntText_complete {text : Text} {ty : MTy} {z : Int} {v : Val}
    (hz : intText text = some z) (hv : asInt ty z = some v)
    (hX : ('X' ∉ text)) (hm : isUInt ty = true → text.head? ≠ some '-') :
    (convertIntText text ty).isSome := by
  obtain ⟨-, lo, hi, hty, hlo, hhi⟩ := asInt_range hv
  have hb := asInt_lt hv
  have hkind : isSInt ty = true ∧ z < 2 ^ 63 ∨ isUInt ty = true := by
    cases ty <;> simp [intRange] at hty <;> first
    | exact .inr rfl
    | (obtain ⟨rfl, rfl⟩ := hty; refine .inl ⟨rfl, by omega⟩)
  have hlower : ∀ {max n : Nat} {r : Radix} {ds : Text}, ds.all (isDigitOf (radixNum r)) = true →
      numOf (radixNum r) ds = n → n ≤ max →
      fromDigits (radixNum r) max 0 (ds.map Char.toLower) = some n := by
    intro max n r ds hall hn hle
    have he := numFrom_toLower (b := radixNum r) 0 ds (all_mono (radixNum_le r).1 hall)
    have hnum : numFrom (radixNum r) 0 ds = n := hn
    rw [fromDigits_eq (radixNum_le r).2 0 _ (all_toLower (radixNum_le r).1 hall) (by omega), he, hnum]
  unfold convertIntText
  rcases sign_cases text with ⟨body, rfl, hl, hi'⟩ | ⟨hhead, hl, hi'⟩
  · rw [hi'] at hz
    simp only [Option.map_eq_some_iff] at hz
    obtain ⟨n, hn, hz⟩ := hz
    obtain ⟨r, ds, hview, hne⟩ := view_of_nat hn (by
      intro h
      apply hX
      have : 'X' ∈ body.take 2 := by rw [h]; simp
      exact List.mem_cons_of_mem _ (List.mem_of_mem_take this))
    rw [hl, hview.lex]
    simp only [List.cons_append, List.nil_append]
    rcases hkind with ⟨hs, -⟩ | hu
    · have hnat := hview.nat hne
      rw [hn] at hnat
      simp only [Option.some.injEq] at hnat
      have hnorm : normalise ('-' :: body) = '-' :: ds.map Char.toLower := by
        simp [normalise, lower_minus, hview.trim]
      have hf := hlower (max := 2 ^ 63) hview.all hnat.symm (by omega)
      have : i64FromStr (radixNum r) (normalise ('-' :: body)) = some z := by
        rw [hnorm, i64_minus (by simpa using hne), hf]; simp [hz]
      cases ty <;> simp [isSInt] at hs <;> simp [convertInteger, this]
    · exact absurd rfl (hm hu)
  · rw [hi'] at hz
    simp only [Option.map_eq_some_iff] at hz
    obtain ⟨n, hn, hz⟩ := hz
    obtain ⟨r, ds, hview, hne⟩ := view_of_nat hn (by
      intro h
      apply hX
      have : 'X' ∈ text.take 2 := by rw [h]; simp
      exact List.mem_of_mem_take this)
    rw [hl, hview.lex]
    simp only [List.nil_append]
    have hnat := hview.nat hne
    rw [hn] at hnat
    simp only [Option.some.injEq] at hnat
    have hnorm := normalise_pos hhead
    rw [hview.trim] at hnorm
    have hall16 : (ds.map Char.toLower).all (isDigitOf 16) = true :=
      all_toLower (Nat.le_refl _) (all_mono (radixNum_le r).1 hview.all)
    rcases hkind with ⟨hs, hlt⟩ | hu
    · have hf := hlower (max := 2 ^ 63 - 1) hview.all hnat.symm (by omega)
      have : i64FromStr (radixNum r) (normalise text) = some z := by
        rw [hnorm, i64_digits (by simpa using hne) hall16, hf]; simp [hz]
      cases ty <;> simp [isSInt] at hs <;> simp [convertInteger, this]
    · have hf := hlower (max := 2 ^ 64 - 1) hview.all hnat.symm (by omega)
      have : u64FromStr (radixNum r) (normalise text) = some n := by
        rw [hnorm, u64_digits (by simpa using hne) hall16, hf]
      cases ty <;> simp [isUInt] at hu <;> simp [convertInteger, this]

end Verif.Udl
