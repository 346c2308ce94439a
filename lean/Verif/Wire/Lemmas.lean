import Verif.Wire.Rust
/-
Lemmas about the Rust reader and writer, used by `Verif.Props.Wire`.
-/
namespace Verif.Wire
open Verif

/-! ### Results -/

@[simp] theorem Res.bind_ok {α β} (a : α) (r : Bytes) (f : α → Bytes → Res β) :
    (Res.ok a r).bind f = f a r := (rfl)
@[simp] theorem Res.map_ok {α β} (a : α) (r : Bytes) (f : α → β) :
    (Res.ok a r).map f = .ok (f a) r := (rfl)
@[simp] theorem Res.bind_err {α β} (e) (f : α → Bytes → Res β) : (Res.err e).bind f = .err e := (rfl)
@[simp] theorem Res.map_err {α β} (e) (f : α → β) : (Res.err e : Res α).map f = .err e := (rfl)
@[simp] theorem Res.bind_panic {α β} (f : α → Bytes → Res β) : (Res.panic).bind f = .panic := (rfl)
@[simp] theorem Res.map_panic {α β} (f : α → β) : (Res.panic : Res α).map f = .panic := (rfl)
@[simp] theorem Res.bind_deep {α β} (f : α → Bytes → Res β) : (Res.deep).bind f = .deep := (rfl)
@[simp] theorem Res.map_deep {α β} (f : α → β) : (Res.deep : Res α).map f = .deep := (rfl)

theorem Res.bind_eq_ok {α β} {r : Res α} {f : α → Bytes → Res β} {b : β} {rest : Bytes} :
    r.bind f = .ok b rest ↔ ∃ a mid, r = .ok a mid ∧ f a mid = .ok b rest := by
  cases r <;> simp [and_assoc]

theorem Res.map_eq_ok {α β} {r : Res α} {f : α → β} {b : β} {rest : Bytes} :
    r.map f = .ok b rest ↔ ∃ a, r = .ok a rest ∧ f a = b := by
  cases r with
  | ok a r => simp only [map_ok, Res.ok.injEq]; constructor
              · rintro ⟨rfl, rfl⟩; exact ⟨a, ⟨rfl, rfl⟩, rfl⟩
              · rintro ⟨_, ⟨rfl, rfl⟩, rfl⟩; exact ⟨rfl, rfl⟩
  | err e => simp
  | panic => simp
  | deep => simp

theorem Res.bind_eq_panic {α β} {r : Res α} {f : α → Bytes → Res β} :
    r.bind f = .panic ↔ r = .panic ∨ ∃ a mid, r = .ok a mid ∧ f a mid = .panic := by
  cases r <;> simp [and_assoc]

theorem Res.map_eq_panic {α β} {r : Res α} {f : α → β} : r.map f = .panic ↔ r = .panic := by
  cases r <;> simp

theorem Res.bind_eq_deep {α β} {r : Res α} {f : α → Bytes → Res β} :
    r.bind f = .deep ↔ r = .deep ∨ ∃ a mid, r = .ok a mid ∧ f a mid = .deep := by
  cases r <;> simp [and_assoc]

theorem Res.map_eq_deep {α β} {r : Res α} {f : α → β} : r.map f = .deep ↔ r = .deep := by
  cases r <;> simp

/-! ### Fixed-width pieces -/

theorem takeN_append (b rest : Bytes) : takeN b.length (b ++ rest) = .ok b rest := by
  simp [takeN]

theorem takeN_append' {n : Nat} {b : Bytes} (h : b.length = n) (rest : Bytes) :
    takeN n (b ++ rest) = .ok b rest := by
  subst h; exact takeN_append b rest

theorem takeN_eq_ok {n : Nat} {bs b rest : Bytes} :
    takeN n bs = .ok b rest ↔ bs = b ++ rest ∧ b.length = n := by
  unfold takeN
  split
  · rename_i h
    constructor
    · intro h'; cases h'
    · rintro ⟨rfl, rfl⟩; simp at h; omega
  · rename_i h
    constructor
    · intro h'; cases h'; simp; omega
    · rintro ⟨rfl, rfl⟩; simp

theorem takeN_ne_panic (n bs) : takeN n bs ≠ .panic := by unfold takeN; split <;> simp
theorem takeN_ne_deep (n bs) : takeN n bs ≠ .deep := by unfold takeN; split <;> simp

theorem inRange_signed {t : IntTy} {z : Int} (hs : t.signed = true) :
    t.InRange z ↔ SignedRange t.width z := by
  cases t <;> simp [IntTy.signed] at hs <;>
    simp [IntTy.InRange, IntTy.signed, IntTy.width, SignedRange] <;> omega

theorem inRange_unsigned {t : IntTy} {z : Int} (hs : t.signed = false) :
    t.InRange z ↔ 0 ≤ z ∧ z < ((256 ^ t.width : Nat) : Int) := by
  cases t <;> simp [IntTy.signed] at hs <;>
    simp [IntTy.InRange, IntTy.signed, IntTy.width]

theorem length_writeInt (t : IntTy) (z : Int) : (writeInt t z).length = t.width := by
  simp [writeInt]

theorem decodeInt_writeInt {t : IntTy} {z : Int} (h : t.InRange z) :
    decodeInt t (writeInt t z) = z := by
  unfold decodeInt writeInt
  rw [beNat_beBytes_of_lt (toUnsigned_lt _ _)]
  by_cases hs : t.signed = true
  · rw [if_pos hs]; exact toSigned_toUnsigned ((inRange_signed hs).1 h)
  · rw [if_neg hs]
    obtain ⟨h0, h1⟩ := (inRange_unsigned (by simpa using hs)).1 h
    obtain ⟨n, rfl⟩ := Int.eq_ofNat_of_zero_le h0
    rw [toUnsigned_natCast (by omega)]

theorem decodeInt_inRange {t : IntTy} {b : Bytes} (h : b.length = t.width) :
    t.InRange (decodeInt t b) := by
  have hlt := beNat_lt b
  rw [h] at hlt
  unfold decodeInt
  by_cases hs : t.signed = true
  · rw [if_pos hs]; exact (inRange_signed hs).2 (toSigned_range _ _ hlt)
  · rw [if_neg hs]; exact (inRange_unsigned (by simpa using hs)).2 ⟨by omega, by omega⟩

theorem writeInt_decodeInt {t : IntTy} {b : Bytes} (h : b.length = t.width) :
    writeInt t (decodeInt t b) = b := by
  have hlt := beNat_lt b
  rw [h] at hlt
  unfold decodeInt writeInt
  by_cases hs : t.signed = true
  · rw [if_pos hs, toUnsigned_toSigned hlt, beBytes_beNat _ _ h]
  · rw [if_neg hs, toUnsigned_natCast hlt, beBytes_beNat _ _ h]

theorem readInt_writeInt {t : IntTy} {z : Int} (h : t.InRange z) (rest : Bytes) :
    readInt t (writeInt t z ++ rest) = .ok z rest := by
  unfold readInt
  rw [takeN_append' (length_writeInt t z)]
  simp [decodeInt_writeInt h]

theorem readInt_eq_ok {t : IntTy} {bs : Bytes} {z : Int} {rest : Bytes} :
    readInt t bs = .ok z rest ↔ bs = writeInt t z ++ rest ∧ t.InRange z := by
  constructor
  · intro h
    unfold readInt at h
    obtain ⟨b, hb, rfl⟩ := Res.map_eq_ok.1 h
    obtain ⟨rfl, hl⟩ := takeN_eq_ok.1 hb
    rw [writeInt_decodeInt hl]
    exact ⟨rfl, decodeInt_inRange hl⟩
  · rintro ⟨rfl, h⟩; exact readInt_writeInt h rest

theorem readInt_ne_panic (t bs) : readInt t bs ≠ .panic := by
  simp [readInt, ne_eq, Res.map_eq_panic, takeN_ne_panic]
theorem readInt_ne_deep (t bs) : readInt t bs ≠ .deep := by
  simp [readInt, ne_eq, Res.map_eq_deep, takeN_ne_deep]

theorem readNat_beBytes {n v : Nat} (h : v < 256 ^ n) (rest : Bytes) :
    readNat n (beBytes n v ++ rest) = .ok v rest := by
  unfold readNat
  rw [takeN_append' (length_beBytes n v)]
  simp [beNat_beBytes_of_lt h]

theorem readNat_eq_ok {n : Nat} {bs : Bytes} {v : Nat} {rest : Bytes} :
    readNat n bs = .ok v rest ↔ bs = beBytes n v ++ rest ∧ v < 256 ^ n := by
  constructor
  · intro h
    unfold readNat at h
    obtain ⟨b, hb, rfl⟩ := Res.map_eq_ok.1 h
    obtain ⟨rfl, hl⟩ := takeN_eq_ok.1 hb
    rw [beBytes_beNat _ _ hl]
    exact ⟨rfl, hl ▸ beNat_lt b⟩
  · rintro ⟨rfl, h⟩; exact readNat_beBytes h rest

theorem readNat_ne_panic (t bs) : readNat t bs ≠ .panic := by
  simp [readNat, ne_eq, Res.map_eq_panic, takeN_ne_panic]
theorem readNat_ne_deep (t bs) : readNat t bs ≠ .deep := by
  simp [readNat, ne_eq, Res.map_eq_deep, takeN_ne_deep]

theorem writeLen_eq_some {n : Nat} {b : Bytes} :
    writeLen n = some b ↔ n < 2 ^ 31 ∧ b = beBytes 4 n := by
  unfold writeLen; split <;> simp_all [eq_comm] <;> omega

theorem writeInt_i32_natCast {n : Nat} (h : n < 2 ^ 31) : writeInt .i32 n = beBytes 4 n := by
  unfold writeInt; rw [toUnsigned_natCast]; rfl
  simp [IntTy.width]; omega

theorem inRange_i32_natCast {n : Nat} (h : n < 2 ^ 31) : IntTy.InRange .i32 n := by
  simp [IntTy.InRange, IntTy.signed, IntTy.width]; omega

theorem readLen_eq_ok {bs : Bytes} {n : Nat} {rest : Bytes} :
    readLen bs = .ok n rest ↔ bs = beBytes 4 n ++ rest ∧ n < 2 ^ 31 := by
  unfold readLen
  rw [Res.bind_eq_ok]
  constructor
  · rintro ⟨z, mid, hz, h⟩
    obtain ⟨rfl, hr⟩ := readInt_eq_ok.1 hz
    split at h
    · cases h
    · rename_i hn
      cases h
      obtain ⟨k, rfl⟩ := Int.eq_ofNat_of_zero_le (by omega : 0 ≤ z)
      have hk : k < 2 ^ 31 := by
        simp [IntTy.InRange, IntTy.signed, IntTy.width] at hr; omega
      simp [writeInt_i32_natCast hk, hk]
  · rintro ⟨rfl, h⟩
    refine ⟨n, rest, ?_, ?_⟩
    · rw [← writeInt_i32_natCast h]; exact readInt_writeInt (inRange_i32_natCast h) rest
    · rw [if_neg (by omega)]; simp

theorem readLen_writeLen {n : Nat} {p : Bytes} (h : writeLen n = some p) (rest : Bytes) :
    readLen (p ++ rest) = .ok n rest := by
  obtain ⟨h1, rfl⟩ := writeLen_eq_some.1 h
  exact readLen_eq_ok.2 ⟨rfl, h1⟩

theorem readLen_ne_panic (bs) : readLen bs ≠ .panic := by
  unfold readLen
  rw [ne_eq, Res.bind_eq_panic]
  rintro (h | ⟨a, mid, _, h⟩)
  · exact readInt_ne_panic _ _ h
  · split at h <;> cases h
theorem readLen_ne_deep (bs) : readLen bs ≠ .deep := by
  unfold readLen
  rw [ne_eq, Res.bind_eq_deep]
  rintro (h | ⟨a, mid, _, h⟩)
  · exact readInt_ne_deep _ _ h
  · split at h <;> cases h

/-- Reading the 1-based variant number back. -/
theorem readVariantNumber {i : Nat} {p : Bytes} (h : writeLen (i + 1) = some p) (rest : Bytes) :
    readInt .i32 (p ++ rest) = .ok ((i : Int) + 1) rest := by
  obtain ⟨h1, rfl⟩ := writeLen_eq_some.1 h
  rw [← writeInt_i32_natCast h1]
  have : ((i + 1 : Nat) : Int) = (i : Int) + 1 := by omega
  rw [this]
  exact readInt_writeInt (by rw [← this]; exact inRange_i32_natCast h1) rest

/-! ### Strings -/

theorem fromUtf8_utf8 (s : String) : fromUtf8 (utf8 s) = some s := by
  unfold fromUtf8 utf8
  have h : (⟨(s.toUTF8.data.toList).toArray⟩ : ByteArray) = s.toUTF8 := by simp
  rw [h]
  unfold String.fromUTF8?
  have hv : s.toUTF8.IsValidUTF8 := s.isValidUTF8
  rw [dif_pos hv]
  rfl

theorem utf8_of_fromUtf8 {b : Bytes} {s : String} (h : fromUtf8 b = some s) : utf8 s = b := by
  unfold fromUtf8 String.fromUTF8? at h
  split at h
  · injection h with h
    subst h
    rfl
  · cases h

theorem readStr_eq_ok {bs : Bytes} {v : Val} {rest : Bytes} :
    readStr bs = .ok v rest ↔
      ∃ s, v = .str s ∧ ∃ p, writeStr s = some p ∧ bs = p ++ rest := by
  unfold readStr writeStr
  simp only [Res.bind_eq_ok, readLen_eq_ok, takeN_eq_ok, Option.map_eq_some_iff,
    writeLen_eq_some]
  constructor
  · rintro ⟨n, mid, ⟨rfl, hn⟩, b, mid', ⟨rfl, hb⟩, h⟩
    split at h
    · rename_i s hs
      cases h
      have hu := utf8_of_fromUtf8 hs
      refine ⟨s, rfl, beBytes 4 n ++ b, ⟨beBytes 4 n, ⟨?_, ?_⟩, ?_⟩, ?_⟩ <;>
        simp [hu, hb, hn]
    · cases h
  · rintro ⟨s, rfl, p, ⟨a, ⟨hn, rfl⟩, rfl⟩, rfl⟩
    refine ⟨(utf8 s).length, utf8 s ++ rest, ⟨by simp, hn⟩, utf8 s, rest, ⟨rfl, rfl⟩, ?_⟩
    rw [fromUtf8_utf8]

theorem readStr_ne_panic (bs) : readStr bs ≠ .panic := by
  unfold readStr
  rw [ne_eq, Res.bind_eq_panic]
  rintro (h | ⟨a, mid, _, h⟩)
  · exact readLen_ne_panic _ h
  · rw [Res.bind_eq_panic] at h
    rcases h with h | ⟨b, mid', _, h⟩
    · exact takeN_ne_panic _ _ h
    · split at h <;> cases h
theorem readStr_ne_deep (bs) : readStr bs ≠ .deep := by
  unfold readStr
  rw [ne_eq, Res.bind_eq_deep]
  rintro (h | ⟨a, mid, _, h⟩)
  · exact readLen_ne_deep _ h
  · rw [Res.bind_eq_deep] at h
    rcases h with h | ⟨b, mid', _, h⟩
    · exact takeN_ne_deep _ _ h
    · split at h <;> cases h

/-! ### Booleans -/

theorem readBool_eq_ok {bs : Bytes} {v : Val} {rest : Bytes} :
    readBool bs = .ok v rest ↔ ∃ b, v = .bool b ∧ bs = writeBool b ++ rest := by
  unfold readBool
  simp only [Res.bind_eq_ok, readInt_eq_ok]
  have e0 : writeInt .i8 0 = writeBool false := by decide
  have e1 : writeInt .i8 1 = writeBool true := by decide
  constructor
  · rintro ⟨z, mid, ⟨rfl, hr⟩, h⟩
    split at h
    · cases h; rename_i hz; exact ⟨false, rfl, by rw [hz, e0]⟩
    · split at h
      · cases h; rename_i hz; exact ⟨true, rfl, by rw [hz, e1]⟩
      · cases h
  · rintro ⟨b, rfl, rfl⟩
    cases b
    · exact ⟨0, rest, ⟨by rw [e0], by decide⟩, by simp⟩
    · exact ⟨1, rest, ⟨by rw [e1], by decide⟩, by simp⟩

theorem readBool_ne_panic (bs) : readBool bs ≠ .panic := by
  unfold readBool
  rw [ne_eq, Res.bind_eq_panic]
  rintro (h | ⟨a, mid, _, h⟩)
  · exact readInt_ne_panic _ _ h
  · split at h
    · cases h
    · split at h <;> cases h
theorem readBool_ne_deep (bs) : readBool bs ≠ .deep := by
  unfold readBool
  rw [ne_eq, Res.bind_eq_deep]
  rintro (h | ⟨a, mid, _, h⟩)
  · exact readInt_ne_deep _ _ h
  · split at h
    · cases h
    · split at h <;> cases h

end Verif.Wire
