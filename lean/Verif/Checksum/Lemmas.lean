import Verif.Checksum.Spec
import Verif.Wire.Lemmas
namespace Verif.Checksum
open Verif
open Verif.Wire (utf8)

variable {ν : Type}

theorem utf8EncodeChar_ne (c : Char) : ∀ b ∈ String.utf8EncodeChar c, b ≠ 0xff := by
  have key : ∀ n : Nat, n < 255 → UInt8.ofNat n ≠ 0xff := by
    intro n hn h
    have := congrArg UInt8.toNat h
    simp at this
    omega
  unfold String.utf8EncodeChar
  dsimp only
  intro b hb
  split at hb
  · simp only [List.mem_singleton] at hb; rw [hb]; exact key _ (by omega)
  · split at hb
    · simp only [List.mem_cons, List.not_mem_nil, or_false] at hb
      rcases hb with rfl | rfl <;> exact key _ (by omega)
    · split at hb
      · simp only [List.mem_cons, List.not_mem_nil, or_false] at hb
        rcases hb with rfl | rfl | rfl <;> exact key _ (by omega)
      · simp only [List.mem_cons, List.not_mem_nil, or_false] at hb
        rcases hb with rfl | rfl | rfl | rfl <;> exact key _ (by omega)

theorem utf8_ne (s : String) : ∀ b ∈ utf8 s, b ≠ 0xff := by
  have h : utf8 s = s.toList.flatMap String.utf8EncodeChar := by
    have e : s.toUTF8 = s.toList.utf8Encode := by simp
    rw [utf8, e, List.utf8Encode]
    simp
  rw [h]
  intro b hb
  obtain ⟨c, -, hc⟩ := List.mem_flatMap.mp hb
  exact utf8EncodeChar_ne c b hc

theorem utf8_inj {s t : String} (h : utf8 s = utf8 t) : s = t := by
  have e := congrArg Verif.Wire.fromUtf8 h
  rw [Verif.Wire.fromUtf8_utf8, Verif.Wire.fromUtf8_utf8] at e
  exact Option.some.inj e

/-- A terminated string ends where it ends. -/
theorem str_end {a b r s : Bytes} (ha : ∀ x ∈ a, x ≠ 0xff) (hb : ∀ x ∈ b, x ≠ 0xff)
    (h : a ++ 0xff :: r = b ++ 0xff :: s) : a = b ∧ r = s := by
  induction a generalizing b with
  | nil =>
    cases b with
    | nil => simpa using h
    | cons y b => simp at h; exact absurd h.1.symm (hb y (by simp))
  | cons x a ih =>
    cases b with
    | nil => simp at h; exact absurd h.1 (ha x (by simp))
    | cons y b =>
      simp at h
      obtain ⟨e1, e2⟩ := ih (fun z hz => ha z (by simp [hz])) (fun z hz => hb z (by simp [hz])) h.2
      exact ⟨by rw [h.1, e1], e2⟩

theorem le64_inj {m n : Nat} {r s : Bytes} (hm : m < 2 ^ 64) (hn : n < 2 ^ 64)
    (h : le64 m ++ r = le64 n ++ s) : m = n ∧ r = s := by
  have hl : (le64 m).length = (le64 n).length := by simp [le64]
  obtain ⟨h1, h2⟩ := List.append_inj h hl
  refine ⟨?_, h2⟩
  have e1 := leNat_leBytes_of_lt (n := 8) (v := m) (by simpa using hm)
  have e2 := leNat_leBytes_of_lt (n := 8) (v := n) (by simpa using hn)
  unfold le64 at h1
  rw [← e1, ← e2, h1]

theorem discrs_length (n : Nat) (vs : List (Var ν)) : (discrsFrom n vs).length = vs.length := by
  induction vs generalizing n with
  | nil => rfl
  | cons v vs ih => simp [discrsFrom, ih]

theorem isTrivial_spec {vs : List (Var ν)} (h : isTrivial vs = true) :
    ∃ v, vs = [v] ∧ v.fields = .unit := by
  unfold isTrivial at h
  simp only [Bool.and_eq_true, beq_iff_eq] at h
  match vs, h with
  | [v], h =>
    refine ⟨v, rfl, ?_⟩
    have h2 := h.2
    simp only [List.all_cons, List.all_nil, Bool.and_true] at h2
    split at h2
    · assumption
    · cases h2
  | [], h => simp at h
  | _ :: _ :: _, h => simp at h

theorem nodup_inj {l : List Nat} (h : l.Nodup) {i j : Nat} {hi : i < l.length} {hj : j < l.length}
    (e : l[i] = l[j]) : i = j := by
  rcases Nat.lt_trichotomy i j with hlt | rfl | hlt
  · exact absurd e (List.pairwise_iff_getElem.mp h i j hi hj hlt)
  · rfl
  · exact absurd e.symm (List.pairwise_iff_getElem.mp h j i hj hi hlt)

variable {env : ν → Decl ν}

mutual
  theorem enc_inj (he : Distinct env) (t : Ty ν) (v w : V) (r s : Bytes) (hv : Typed env t v)
      (hw : Typed env t w) (h : enc env t v ++ r = enc env t w ++ s) :
      visible env t v = visible env t w ∧ r = s := by
    match v with
    | .bool a =>
      cases t with
      | bool =>
        cases w with
        | bool b =>
          simp only [enc, List.cons_append, List.nil_append, List.cons.injEq] at h
          refine ⟨?_, h.2⟩
          cases a <;> cases b <;> simp_all
        | _ => simp only [Typed] at hw
      | _ => simp only [Typed] at hv
    | .u64 a =>
      cases t with
      | u64 =>
        cases w with
        | u64 b =>
          simp only [Typed] at hv hw
          obtain ⟨e, h2⟩ := le64_inj hv hw h
          exact ⟨by rw [e], h2⟩
        | _ => simp only [Typed] at hw
      | _ => simp only [Typed] at hv
    | .i64 a =>
      cases t with
      | i64 =>
        cases w with
        | i64 b =>
          simp only [Typed] at hv hw
          obtain ⟨e, h2⟩ := le64_inj (by omega) (by omega) h
          have : a = b := by omega
          exact ⟨by rw [this], h2⟩
        | _ => simp only [Typed] at hw
      | _ => simp only [Typed] at hv
    | .str a =>
      cases t with
      | str =>
        cases w with
        | str b =>
          simp only [enc, List.append_assoc, List.singleton_append] at h
          obtain ⟨e, h2⟩ := str_end (utf8_ne a) (utf8_ne b) h
          exact ⟨by rw [utf8_inj e], h2⟩
        | _ => simp only [Typed] at hw
      | _ => simp only [Typed] at hv
    | .box a =>
      cases t with
      | box t =>
        cases w with
        | box b =>
          obtain ⟨e, h2⟩ := enc_inj he t a b r s hv hw h
          exact ⟨by simp only [visible, e], h2⟩
        | _ => simp only [Typed] at hw
      | _ => simp only [Typed] at hv
    | .seq a =>
      cases t with
      | seq t =>
        cases w with
        | seq b =>
          simp only [Typed] at hv hw
          simp only [enc, List.append_assoc] at h
          obtain ⟨e, h2⟩ := le64_inj hv.1 hw.1 h
          obtain ⟨e2, h3⟩ := encSeq_inj he t a b r s e hv.2 hw.2 h2
          exact ⟨by simp only [visible, e2], h3⟩
        | _ => simp only [Typed] at hw
      | _ => simp only [Typed] at hv
    | .map a =>
      cases t with
      | map k t =>
        cases w with
        | map b =>
          simp only [Typed] at hv hw
          simp only [enc, List.append_assoc] at h
          obtain ⟨e, h2⟩ := le64_inj hv.1 hw.1 h
          obtain ⟨e2, h3⟩ := encEntries_inj he k t a b r s e hv.2 hw.2 h2
          exact ⟨by simp only [visible, e2], h3⟩
        | _ => simp only [Typed] at hw
      | _ => simp only [Typed] at hv
    | .optNone =>
      cases t with
      | option t =>
        cases w with
        | optNone =>
          exact ⟨rfl, (List.append_inj h rfl).2⟩
        | optSome b =>
          simp only [enc, List.append_assoc] at h
          have := (le64_inj (by decide) (by decide) h).1
          cases this
        | _ => simp only [Typed] at hw
      | _ => simp only [Typed] at hv
    | .optSome a =>
      cases t with
      | option t =>
        cases w with
        | optNone =>
          simp only [enc, List.append_assoc] at h
          have := (le64_inj (by decide) (by decide) h).1
          cases this
        | optSome b =>
          simp only [enc, List.append_assoc] at h
          obtain ⟨-, h2⟩ := le64_inj (by decide) (by decide) h
          obtain ⟨e, h3⟩ := enc_inj he t a b r s hv hw h2
          exact ⟨by simp only [visible, e], h3⟩
        | _ => simp only [Typed] at hw
      | _ => simp only [Typed] at hv
    | .struct a =>
      cases t with
      | named n =>
        cases w with
        | struct b =>
          simp only [Typed] at hv hw
          simp only [enc] at h
          cases hn : env n with
          | enum vs => simp only [hn] at hv
          | struct fs =>
            simp only [hn] at hv hw h
            obtain ⟨e, h2⟩ := encFields_inj he fs a b r s hv hw h
            exact ⟨by simp only [visible, hn, e], h2⟩
        | variant j b =>
          simp only [Typed] at hv hw
          cases hn : env n <;> simp only [hn] at hv hw
        | _ => simp only [Typed] at hw
      | _ => simp only [Typed] at hv
    | .variant i a =>
      cases t with
      | named n =>
        cases w with
        | struct b =>
          simp only [Typed] at hv hw
          cases hn : env n <;> simp only [hn] at hv hw
        | variant j b =>
          simp only [Typed] at hv hw
          simp only [enc] at h
          cases hn : env n with
          | struct vs => simp only [hn] at hv
          | enum vars =>
            simp only [hn] at hv hw h
            cases hi : vars[i]? with
            | none => simp only [hi] at hv
            | some vi =>
              cases hj : vars[j]? with
              | none => simp only [hj] at hw
              | some vj =>
                simp only [hi] at hv
                simp only [hj] at hw
                by_cases ht : isTrivial vars = true
                · simp only [ht, if_true, List.nil_append] at h
                  obtain ⟨x, rfl, hx⟩ := isTrivial_spec ht
                  have i0 : i = 0 := by
                    have := (List.getElem?_eq_some_iff.mp hi).1; simp at this; exact this
                  have j0 : j = 0 := by
                    have := (List.getElem?_eq_some_iff.mp hj).1; simp at this; exact this
                  subst i0; subst j0
                  simp only [List.getElem?_cons_zero, Option.some.injEq] at hi hj
                  subst hi; subst hj
                  simp only [hx, Flds.hashed] at hv hw
                  refine ⟨?_, h⟩
                  have : a = b := by
                    cases a with
                    | nil =>
                      cases b with
                      | nil => rfl
                      | cons _ _ => simp only [TypedFields] at hw
                    | cons _ _ => simp only [TypedFields] at hv
                  rw [this]
                · have hil := (List.getElem?_eq_some_iff.mp hi).1
                  have hjl := (List.getElem?_eq_some_iff.mp hj).1
                  have hlen := discrs_length 0 vars
                  obtain ⟨hnd, hlt⟩ := he n vars hn
                  have di : (discrs vars)[i]? = some ((discrs vars)[i]'(by rw [discrs, hlen]; exact hil)) :=
                    List.getElem?_eq_getElem _
                  have dj : (discrs vars)[j]? = some ((discrs vars)[j]'(by rw [discrs, hlen]; exact hjl)) :=
                    List.getElem?_eq_getElem _
                  simp only [ht, if_false, hi, hj, di, dj, List.append_assoc, Bool.false_eq_true] at h
                  obtain ⟨e, h2⟩ := le64_inj (hlt _ (List.getElem_mem _)) (hlt _ (List.getElem_mem _)) h
                  have hij : i = j := nodup_inj hnd e
                  subst hij
                  rw [hi] at hj
                  cases hj
                  obtain ⟨e, h3⟩ := encFields_inj he vi.fields.hashed a b r s hv hw h2
                  exact ⟨by simp only [visible, hn, hi, e], h3⟩
        | _ => simp only [Typed] at hw
      | _ => simp only [Typed] at hv
    | .pair _ _ => cases t <;> simp only [Typed] at hv
  termination_by structural v
  theorem encSeq_inj (he : Distinct env) (t : Ty ν) (v w : List V) (r s : Bytes)
      (hl : v.length = w.length) (hv : TypedSeq env t v) (hw : TypedSeq env t w)
      (h : encSeq env t v ++ r = encSeq env t w ++ s) :
      visibleSeq env t v = visibleSeq env t w ∧ r = s := by
    match v, w with
    | [], [] => exact ⟨rfl, h⟩
    | a :: v, b :: w =>
      simp only [TypedSeq] at hv hw
      simp only [encSeq, List.append_assoc] at h
      obtain ⟨e, h2⟩ := enc_inj he t a b _ _ hv.1 hw.1 h
      obtain ⟨e2, h3⟩ := encSeq_inj he t v w r s (by simpa using hl) hv.2 hw.2 h2
      exact ⟨by simp only [visibleSeq, e, e2], h3⟩
    | [], _ :: _ => simp at hl
    | _ :: _, [] => simp at hl
  termination_by structural v
  theorem encEntries_inj (he : Distinct env) (k t : Ty ν) (v w : List V) (r s : Bytes)
      (hl : v.length = w.length) (hv : TypedEntries env k t v) (hw : TypedEntries env k t w)
      (h : encEntries env k t v ++ r = encEntries env k t w ++ s) :
      visibleEntries env k t v = visibleEntries env k t w ∧ r = s := by
    match v, w with
    | [], [] => exact ⟨rfl, h⟩
    | .pair a b :: v, x :: w =>
      cases x with
      | pair c d =>
        simp only [TypedEntries] at hv hw
        simp only [encEntries, List.append_assoc] at h
        obtain ⟨e, h2⟩ := enc_inj he k a c _ _ hv.1 hw.1 h
        obtain ⟨e1, h3⟩ := enc_inj he t b d _ _ hv.2.1 hw.2.1 h2
        obtain ⟨e2, h4⟩ := encEntries_inj he k t v w r s (by simpa using hl) hv.2.2 hw.2.2 h3
        exact ⟨by simp only [visibleEntries, e, e1, e2], h4⟩
      | _ => simp only [TypedEntries] at hw
    | [], _ :: _ => simp at hl
    | _ :: _, [] => simp at hl
    | .bool _ :: v, _ :: _ | .u64 _ :: v, _ :: _ | .i64 _ :: v, _ :: _ | .str _ :: v, _ :: _
    | .box _ :: v, _ :: _ | .seq _ :: v, _ :: _ | .map _ :: v, _ :: _ | .optNone :: v, _ :: _
    | .optSome _ :: v, _ :: _ | .struct _ :: v, _ :: _ | .variant _ _ :: v, _ :: _ =>
      simp only [TypedEntries] at hv
  termination_by structural v
  theorem encFields_inj (he : Distinct env) (fs : List (Fld ν)) (v w : List V) (r s : Bytes)
      (hv : TypedFields env fs v) (hw : TypedFields env fs w)
      (h : encFields env fs v ++ r = encFields env fs w ++ s) :
      visibleFields env fs v = visibleFields env fs w ∧ r = s := by
    match v, w, fs with
    | [], [], [] => exact ⟨rfl, h⟩
    | a :: v, b :: w, f :: fs =>
      simp only [TypedFields] at hv hw
      simp only [encFields, List.append_assoc] at h
      cases hf : f.ignore with
      | true =>
        simp only [hf, if_true, List.nil_append] at h
        obtain ⟨e2, h3⟩ := encFields_inj he fs v w r s hv.2 hw.2 h
        exact ⟨by simp only [visibleFields, hf, if_true, e2], h3⟩
      | false =>
        simp only [hf, Bool.false_eq_true, if_false] at h
        obtain ⟨e, h2⟩ := enc_inj he f.ty a b _ _ (hv.1 hf) (hw.1 hf) h
        obtain ⟨e2, h3⟩ := encFields_inj he fs v w r s hv.2 hw.2 h2
        exact ⟨by simp only [visibleFields, hf, e, e2], h3⟩
    | [], b :: w, [] => simp only [TypedFields] at hw
    | a :: v, w, [] => simp only [TypedFields] at hv
    | [], w, f :: fs => simp only [TypedFields] at hv
    | a :: v, [], f :: fs => simp only [TypedFields] at hw
  termination_by structural v
end

theorem visibleSeq_length (t : Ty ν) (vs : List V) :
    (visibleSeq env t vs).length = vs.length := by
  induction vs with
  | nil => rfl
  | cons v vs ih => simp [visibleSeq, ih]

theorem visibleEntries_length (k t : Ty ν) (vs : List V) :
    (visibleEntries env k t vs).length = vs.length := by
  induction vs with
  | nil => rfl
  | cons v vs ih => cases v <;> simp [visibleEntries, ih]

mutual
  theorem enc_visible (t : Ty ν) (v : V) : enc env t (visible env t v) = enc env t v := by
    match v with
    | .box a =>
      cases t with
      | box t => simp only [visible, enc]; exact enc_visible t a
      | _ => rfl
    | .seq a =>
      cases t with
      | seq t => simp only [visible, enc, visibleSeq_length, encSeq_visible t a]
      | _ => rfl
    | .map a =>
      cases t with
      | map k t => simp only [visible, enc, visibleEntries_length, encEntries_visible k t a]
      | _ => rfl
    | .optSome a =>
      cases t with
      | option t => simp only [visible, enc, enc_visible t a]
      | _ => rfl
    | .struct a =>
      cases t with
      | named n =>
        cases hn : env n with
        | struct fs => simp only [visible, enc, hn, encFields_visible fs a]
        | enum vs => simp only [visible, enc, hn]
      | _ => rfl
    | .variant i a =>
      cases t with
      | named n =>
        cases hn : env n with
        | struct fs => simp only [visible, enc, hn]
        | enum vs =>
          cases hi : vs[i]? with
          | none => simp only [visible, enc, hn, hi]
          | some x =>
            have e := encFields_visible x.fields.hashed a
            simp only [visible, enc, hn, hi]
            cases (discrs vs)[i]? <;> simp only [e]
      | _ => rfl
    | .bool a => cases t <;> rfl
    | .u64 a => cases t <;> rfl
    | .i64 a => cases t <;> rfl
    | .str a => cases t <;> rfl
    | .pair _ _ => cases t <;> rfl
    | .optNone => cases t <;> rfl
  termination_by structural v
  theorem encSeq_visible (t : Ty ν) (v : List V) :
      encSeq env t (visibleSeq env t v) = encSeq env t v := by
    match v with
    | [] => rfl
    | a :: v => simp only [visibleSeq, encSeq, enc_visible t a, encSeq_visible t v]
  termination_by structural v
  theorem encEntries_visible (k t : Ty ν) (v : List V) :
      encEntries env k t (visibleEntries env k t v) = encEntries env k t v := by
    match v with
    | [] => rfl
    | .pair a b :: v =>
      simp only [visibleEntries, encEntries, enc_visible k a, enc_visible t b,
        encEntries_visible k t v]
    | .bool _ :: v | .u64 _ :: v | .i64 _ :: v | .str _ :: v
    | .box _ :: v | .seq _ :: v | .map _ :: v | .optNone :: v
    | .optSome _ :: v | .struct _ :: v | .variant _ _ :: v =>
      simp only [visibleEntries, encEntries, encEntries_visible k t v]
  termination_by structural v
  theorem encFields_visible (fs : List (Fld ν)) (v : List V) :
      encFields env fs (visibleFields env fs v) = encFields env fs v := by
    match v with
    | [] => cases fs <;> rfl
    | a :: v =>
      cases fs with
      | nil => rfl
      | cons f fs =>
        cases hf : f.ignore with
        | true => simp only [visibleFields, encFields, hf, if_true, encFields_visible fs v]
        | false =>
          simp only [visibleFields, encFields, hf, Bool.false_eq_true, if_false,
            enc_visible f.ty a, encFields_visible fs v]
  termination_by structural v
end

end Verif.Checksum
