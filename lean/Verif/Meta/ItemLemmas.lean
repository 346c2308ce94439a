import Verif.Meta.ReaderLemmas
/- Every item the macros emit, read back. -/
namespace Verif.Meta
open Verif
open Verif.Wire (utf8)

/-- Reader `p` on the bytes of `ops`: the value `o`, or an error when `o` is `none`. -/
def Out {α : Type} (p : Rd α) (pre : Bytes) (ops : List Op) (o : Option α) : Prop :=
  OkAll ops → ∀ rest, p (pre ++ (bytesAll ops ++ rest)) (bytesAll ops ++ rest) =
    match o with
    | some a => .ok (a, rest)
    | none => .err

theorem Reads.out {α : Type} {p : Rd α} {pre : Bytes} {ops : List Op} {a : α}
    (h : Reads p pre ops a) : Out p pre ops (some a) := h

namespace Out
variable {α β : Type}

theorem fail (pre : Bytes) (ops : List Op) : Out (Rd.fail : Rd α) pre ops none := fun _ _ => rfl

theorem append {p : Rd α} {f : α → Rd β} {pre : Bytes} {x y : List Op} {o : Option α}
    {g : α → Option β} (h1 : Out p pre x o) (h2 : ∀ a, o = some a → Out (f a) (pre ++ bytesAll x) y (g a)) :
    Out (p >>= f) pre (x ++ y) (o.bind g) := by
  intro ok rest
  rw [okAll_append] at ok
  have e1 := h1 ok.1 (bytesAll y ++ rest)
  rw [bytesAll_append, List.append_assoc]
  show Rd.bind p f _ _ = _
  cases o with
  | none => simp only [Rd.bind, e1, Option.bind_none]
  | some a =>
    have e2 := h2 a rfl ok.2 rest
    rw [List.append_assoc] at e2
    simp only [Rd.bind, e1, e2, Option.bind_some]

theorem seq {p : Rd α} {f : α → Rd β} {pre : Bytes} {x y : List Op} {a : α} {o : Option β}
    (h1 : Reads p pre x a) (h2 : Out (f a) (pre ++ bytesAll x) y o) :
    Out (p >>= f) pre (x ++ y) o := by
  have := append (g := fun b => o) (f := f) h1.out (fun b e => by cases e; exact h2)
  simpa using this

theorem cons {p : Rd α} {f : α → Rd β} {pre : Bytes} {op : Op} {y : List Op} {a : α} {o : Option β}
    (h1 : Reads p pre [op] a) (h2 : Out (f a) (pre ++ op.bytes) y o) :
    Out (p >>= f) pre (op :: y) o := by
  have := seq (x := [op]) (f := f) (y := y) (o := o) h1 (by simpa [bytesAll] using h2)
  simpa using this

theorem map {p : Rd α} {f : α → β} {pre : Bytes} {x : List Op} {o : Option α}
    (h : Out p pre x o) : Out (p >>= fun a => Pure.pure (f a)) pre x (o.map f) := by
  have := append (f := fun a => (Pure.pure (f a) : Rd β)) (y := []) (g := fun a => some (f a)) h
    (fun a _ => (Reads.pure (f a) _).out)
  simpa [Option.map_eq_bind, Function.comp_def] using this

theorem buf {p : Rd α} {pre : Bytes} {x : List Op} {o : Option α} (h : Out p pre x o) :
    Out p pre [.buf x] o := by
  intro ok rest
  simpa [bytesAll, Op.bytes] using h ok.1 rest

end Out

/- Integer literals -/

theorem parseDigits_toDigits (n : Nat) : Rd.parseDigits (Nat.toDigits 10 n) = some n := by
  unfold Rd.parseDigits
  have h1 : (Nat.toDigits 10 n).isEmpty = false := by
    simpa using Nat.toDigits_ne_nil
  have h2 : (Nat.toDigits 10 n).all Char.isDigit = true := by
    rw [List.all_eq_true]
    intro c hc
    exact Nat.isDigit_of_mem_toDigits (by decide) (by decide) hc
  simp [h1, h2]

theorem toDigits_head (n : Nat) : ∃ c cs, Nat.toDigits 10 n = c :: cs ∧ c ≠ '-' ∧ c ≠ '+' := by
  cases h : Nat.toDigits 10 n with
  | nil => exact absurd h Nat.toDigits_ne_nil
  | cons c cs =>
    have := Nat.isDigit_of_mem_toDigits (b := 10) (n := n) (c := c) (by decide) (by decide) (by simp [h])
    refine ⟨c, cs, rfl, ?_, ?_⟩ <;> rintro rfl <;> revert this <;> decide

theorem parseDigits_minus (cs : List Char) : Rd.parseDigits ('-' :: cs) = none := by
  have : ('-').isDigit = false := by decide
  simp [Rd.parseDigits, this]

theorem unsignedValue_toDigits (n : Nat) : Rd.unsignedValue (Nat.toDigits 10 n) = some n := by
  rw [← parseDigits_toDigits n]
  obtain ⟨c, cs, e, h1, h2⟩ := toDigits_head n
  rw [e]
  unfold Rd.unsignedValue
  split
  · rename_i h; simp only [List.cons.injEq] at h; exact absurd h.1 h2
  · rfl

theorem signedValue_toDigits (n : Nat) : Rd.signedValue (Nat.toDigits 10 n) = some (n : Int) := by
  have : some (n : Int) = (Rd.parseDigits (Nat.toDigits 10 n)).map Int.ofNat := by
    rw [parseDigits_toDigits]; rfl
  rw [this]
  obtain ⟨c, cs, e, h1, h2⟩ := toDigits_head n
  rw [e]
  unfold Rd.signedValue
  split
  · rename_i h; simp only [List.cons.injEq] at h; exact absurd h.1 h2
  · rename_i h; simp only [List.cons.injEq] at h; exact absurd h.1 h1
  · rfl

theorem parseUInt_digits (bits : Nat) (z : Int) :
    Rd.parseUInt bits (intDigits z) =
      if 0 ≤ z ∧ z < 2 ^ bits then some z.toNat else none := by
  unfold Rd.parseUInt intDigits
  rw [String.toList_ofList]
  by_cases hz : z < 0
  · rw [if_pos hz, if_neg (by omega)]
    show (Rd.parseDigits _).bind _ = none
    rw [parseDigits_minus]; rfl
  · rw [if_neg hz, unsignedValue_toDigits]
    have hp : (2 : Int) ^ bits = ((2 ^ bits : Nat) : Int) := by simp
    rw [hp]
    simp only [Option.bind_some]
    by_cases hb : z.natAbs < 2 ^ bits
    · rw [if_pos hb, if_pos (by omega)]; congr 1; omega
    · rw [if_neg hb, if_neg (by omega)]

theorem parseSInt_digits (bits : Nat) (z : Int) :
    Rd.parseSInt bits (intDigits z) =
      if -2 ^ (bits - 1) ≤ z ∧ z < 2 ^ (bits - 1) then some z else none := by
  unfold Rd.parseSInt intDigits
  rw [String.toList_ofList]
  by_cases hz : z < 0
  · rw [if_pos hz]
    have : Rd.signedValue ('-' :: Nat.toDigits 10 z.natAbs) = some z := by
      show (Rd.parseDigits _).map _ = _
      rw [parseDigits_toDigits]; simp; omega
    rw [this]; rfl
  · rw [if_neg hz, signedValue_toDigits]
    have : (z.natAbs : Int) = z := by omega
    rw [this]; rfl

theorem head_digits (z : Int) : (intDigits z).toList.head? = some '-' ↔ z < 0 := by
  unfold intDigits
  rw [String.toList_ofList]
  by_cases hz : z < 0
  · simp [hz]
  · obtain ⟨c, cs, e, h1, h2⟩ := toDigits_head z.natAbs
    simp [hz, e, h1]

namespace Out

theorem ofOption {o : Option α} {p : Rd α} (pre : Bytes)
    (hs : ∀ a, o = some a → p = Pure.pure a) (hn : o = none → p = Rd.fail) : Out p pre [] o := by
  cases o with
  | none => rw [hn rfl]; exact fun _ _ => rfl
  | some a => rw [hs a rfl]; exact fun _ _ => rfl

theorem uintLit (bits : Nat) (ty : MTy) (z : Int) (pre : Bytes) :
    Out (Rd.uintLit bits ty (intDigits z)) pre []
      (if 0 ≤ z ∧ z < 2 ^ bits then some (.uint z.toNat .decimal ty) else none) := by
  unfold Rd.uintLit
  rw [parseUInt_digits]
  by_cases h : 0 ≤ z ∧ z < 2 ^ bits
  · rw [if_pos h, if_pos h]; exact fun _ _ => rfl
  · rw [if_neg h, if_neg h]; exact fun _ _ => rfl

theorem intLit (bits : Nat) (ty : MTy) (z : Int) (pre : Bytes) :
    Out (Rd.intLit bits ty (intDigits z)) pre []
      (if -2 ^ (bits - 1) ≤ z ∧ z < 2 ^ (bits - 1) then some (.int z .decimal ty) else none) := by
  unfold Rd.intLit
  rw [parseSInt_digits]
  by_cases h : -2 ^ (bits - 1) ≤ z ∧ z < 2 ^ (bits - 1)
  · rw [if_pos h, if_pos h]; exact fun _ _ => rfl
  · rw [if_neg h, if_neg h]; exact fun _ _ => rfl

/-- `read_literal` on an integer literal. -/
theorem intLiteral (pre : Bytes) (z : Int) (ty : MTy) (rec : Rd MDef) :
    Out (Rd.literalBody ty rec) pre [.value Core.lInt, .str (intDigits z)]
      (intMeaning z (defaultType ty)) := by
  refine cons (Reads.u8 _ _) ?_
  pick
  refine cons (Reads.str _ _) ?_
  have hs : Rd.stripCustom ty = defaultType ty := by cases ty <;> rfl
  rw [hs]
  generalize defaultType ty = t
  by_cases h64 : t = .uint64
  · subst h64
    by_cases hz : z < 0
    · have e : Rd.intLitType (intDigits z) .uint64 = .int64 := by
        unfold Rd.intLitType; rw [if_pos ⟨(head_digits z).2 hz, rfl⟩]
      rw [e]
      simp only [intMeaning]
      rw [if_neg (by omega)]
      have := intLit 64 .int64 z ((pre ++ (Op.value Core.lInt).bytes) ++ (Op.str (intDigits z)).bytes)
      simp only [show 64 - 1 = 63 from rfl] at this
      have e : (-2 ^ 63 ≤ z ∧ z < 2 ^ 63) ↔ (-2 ^ 63 ≤ z ∧ z < 0) := by omega
      simp only [e] at this
      exact this
    · have e : Rd.intLitType (intDigits z) .uint64 = .uint64 := by
        unfold Rd.intLitType; rw [if_neg (fun h => hz ((head_digits z).1 h.1))]
      rw [e]
      simp only [intMeaning]
      have := uintLit 64 .uint64 z ((pre ++ (Op.value Core.lInt).bytes) ++ (Op.str (intDigits z)).bytes)
      rw [if_neg (c := -2 ^ 63 ≤ z ∧ z < 0) (by omega)]
      exact this
  · have e : Rd.intLitType (intDigits z) t = t := by
      unfold Rd.intLitType; rw [if_neg (fun h => h64 h.2)]
    rw [e]
    cases t <;> first
      | exact absurd rfl h64
      | exact uintLit _ _ _ _
      | exact intLit _ _ _ _
      | exact fail _ _

/-- `read_literal` takes a custom type apart. -/
theorem strip_eq (ty : MTy) : Rd.stripCustom ty = defaultType ty := by cases ty <;> rfl

/-- `read_default` is one layer around itself. -/
theorem default_unfold (ty : MTy) : ∃ rec, Rd.default ty = Rd.defaultBody (Rd.literalBody ty rec) ∧
    ∀ t, defaultType ty = .optional t → rec = Rd.default t := by
  cases ty with
  | optional t => exact ⟨_, by rw [Rd.default], fun t' h => by cases h; rfl⟩
  | custom m n t =>
    cases t with
    | optional t => exact ⟨_, by rw [Rd.default], fun t' h => by cases h; rfl⟩
    | _ => exact ⟨Rd.fail, by rw [Rd.default]; all_goals simp, fun t' h => by cases h⟩
  | _ => exact ⟨Rd.fail, by rw [Rd.default]; all_goals simp, fun t' h => by cases h⟩

/-- A default as `read_default` sees it. -/
theorem defaultValue (d : DefSrc) : ∀ (c : List Op) (_ : d.calls = some c) (ty : MTy) (pre : Bytes),
    Out (Rd.default ty) pre c (d.meaning ty) := by
  induction d with
  | str s =>
    intro c hc ty pre
    cases hc
    obtain ⟨rec, e, -⟩ := default_unfold ty
    rw [e]
    refine cons (Reads.u8 _ _) ?_
    pick
    simp only [DefSrc.meaning]
    have : (if defaultType ty = .string then some (MDef.literal (.string s)) else none)
        = (if defaultType ty = .string then some (MLit.string s) else none).map .literal := by
      split <;> rfl
    rw [this]
    apply map
    refine cons (Reads.u8 _ _) ?_
    pick
    rw [strip_eq]
    by_cases h : defaultType ty = .string
    · rw [h, if_pos rfl]
      exact (Reads.str _ _).map.out
    · rw [if_neg h]
      split
      · exact absurd ‹_› h
      · exact fail _ _
  | int z suf =>
    intro c hc ty pre
    cases suf with
    | true => cases hc
    | false =>
      cases hc
      obtain ⟨rec, e, -⟩ := default_unfold ty
      rw [e]
      refine cons (Reads.u8 _ _) ?_
      pick
      exact (intLiteral _ _ _ _).map
  | float s suf =>
    intro c hc ty pre
    cases suf with
    | true => cases hc
    | false =>
      cases hc
      obtain ⟨rec, e, -⟩ := default_unfold ty
      rw [e]
      refine cons (Reads.u8 _ _) ?_
      pick
      simp only [DefSrc.meaning]
      have : (if defaultType ty = .float32 ∨ defaultType ty = .float64 then
            some (MDef.literal (.float s (defaultType ty))) else none)
          = (if defaultType ty = .float32 ∨ defaultType ty = .float64 then
            some (MLit.float s (defaultType ty)) else none).map .literal := by
        split <;> rfl
      rw [this]
      apply map
      refine cons (Reads.u8 _ _) ?_
      pick
      rw [strip_eq]
      by_cases h : defaultType ty = .float32
      · rw [h, if_pos (Or.inl rfl)]
        exact (Reads.str _ _).map.out
      · by_cases h' : defaultType ty = .float64
        · rw [h', if_pos (Or.inr rfl)]
          exact (Reads.str _ _).map.out
        · rw [if_neg (by simp [h, h'])]
          split
          · exact absurd ‹_› h
          · exact absurd ‹_› h'
          · exact fail _ _
  | bool b =>
    intro c hc ty pre
    cases hc
    obtain ⟨rec, e, -⟩ := default_unfold ty
    rw [e]
    exact cons (Reads.u8 _ _) (map (o := some (MLit.boolean b)) (cons (Reads.u8 _ _) (Reads.bool _ _).map.out))
  | otherLiteral => intro c hc; cases hc
  | optNone =>
    intro c hc ty pre
    cases hc
    obtain ⟨rec, e, -⟩ := default_unfold ty
    rw [e]
    refine cons (Reads.u8 _ _) ?_
    pick
    by_cases h : ∃ t, defaultType ty = .optional t
    · obtain ⟨t, h⟩ := h
      have : DefSrc.optNone.meaning ty = some (.literal .optNone) := by simp only [DefSrc.meaning, h]
      rw [this]
      refine map (o := some MLit.optNone) (cons (Reads.u8 _ _) ?_)
      pick
      rw [strip_eq, h]
      exact (Reads.pure _ _).out
    · have : DefSrc.optNone.meaning ty = (none : Option MLit).map .literal := by
        simp only [DefSrc.meaning]; split
        · exact absurd ⟨_, ‹_›⟩ h
        · rfl
      rw [this]
      refine map (cons (Reads.u8 _ _) ?_)
      pick
      rw [strip_eq]
      split
      · exact absurd ⟨_, ‹_›⟩ h
      · exact fail _ _
  | optSome d ih =>
    intro c hc ty pre
    simp only [DefSrc.calls, Option.map_eq_some_iff] at hc
    obtain ⟨c, hc, rfl⟩ := hc
    obtain ⟨rec, e, hr⟩ := default_unfold ty
    rw [e]
    simp only [List.cons_append, List.nil_append]
    refine cons (Reads.u8 _ _) ?_
    pick
    by_cases h : ∃ t, defaultType ty = .optional t
    · obtain ⟨t, h⟩ := h
      have : (DefSrc.optSome d).meaning ty = ((d.meaning t).map MLit.optSome).map .literal := by
        simp only [DefSrc.meaning, h, Option.map_map]; rfl
      rw [this]
      refine map (cons (Reads.u8 _ _) ?_)
      pick
      rw [strip_eq, h, hr t h]
      exact (ih c hc t _).map
    · have : (DefSrc.optSome d).meaning ty = (none : Option MLit).map .literal := by
        simp only [DefSrc.meaning]; split
        · exact absurd ⟨_, ‹_›⟩ h
        · rfl
      rw [this]
      refine map (cons (Reads.u8 _ _) ?_)
      pick
      rw [strip_eq]
      split
      · exact absurd ⟨_, ‹_›⟩ h
      · exact fail _ _
  | emptySeq =>
    intro c hc ty pre
    cases hc
    obtain ⟨rec, e, -⟩ := default_unfold ty
    rw [e]
    exact cons (Reads.u8 _ _) (map (o := some MLit.emptySequence) (cons (Reads.u8 _ _) (Reads.pure _ _).out))
  | default =>
    intro c hc ty pre
    cases hc
    obtain ⟨rec, e, -⟩ := default_unfold ty
    rw [e]
    exact cons (Reads.u8 _ _) (Reads.pure _ _).out


theorem appendMap {p : Rd α} {f : α → Rd β} {pre : Bytes} {x y : List Op} {o : Option α}
    {g : α → β} (h1 : Out p pre x o) (h2 : ∀ a, Reads (f a) (pre ++ bytesAll x) y (g a)) :
    Out (p >>= f) pre (x ++ y) (o.map g) := by
  have := append (f := f) (g := fun a => some (g a)) h1 (fun a _ => (h2 a).out)
  simpa [Option.map_eq_bind, Function.comp_def] using this

theorem optDefault {d : Option DefSrc} {c : List Op} (hc : defaultCalls d = some c) (ty : MTy)
    (pre : Bytes) : Out (Rd.optDefault ty) pre c (optMeaning (·.meaning ty) d) := by
  cases d with
  | none => cases hc; exact cons (Reads.bool _ _) (Reads.pure _ _).out
  | some d =>
    simp only [defaultCalls, Option.map_eq_some_iff] at hc
    obtain ⟨c, hc, rfl⟩ := hc
    exact cons (Reads.bool _ _) (defaultValue d c hc ty _).map

theorem discr (d : Option Int) (pre : Bytes) :
    Out (Rd.optLiteral .uint64) pre (discrCalls d) (optMeaning (intMeaning · .uint64) d) := by
  cases d with
  | none => exact cons (Reads.bool _ _) (Reads.pure _ _).out
  | some d => exact cons (Reads.bool _ _) (intLiteral _ d .uint64 Rd.fail).map

theorem times {γ : Type} {p : Rd α} {calls : γ → Option (List Op)} {f : γ → Option α}
    (h : ∀ a c pre, calls a = some c → Out p pre c (f a)) (l : List γ) :
    ∀ (c : List Op) (_ : callsOf calls l = some c) (pre : Bytes),
      Out (Rd.times p l.length) pre c (listMeaning f l) := by
  induction l with
  | nil => intro c hc pre; cases hc; exact (Reads.pure _ _).out
  | cons a l ih =>
    intro c hc pre
    simp only [callsOf, Option.bind_eq_some_iff, Option.map_eq_some_iff] at hc
    obtain ⟨x, hx, y, hy, rfl⟩ := hc
    exact append (h a x pre hx) (fun b _ => (ih y hy _).map)

theorem counted {γ : Type} {p : Rd α} {calls : γ → Option (List Op)} {f : γ → Option α}
    (h : ∀ a c pre, calls a = some c → Out p pre c (f a)) {l : List γ} {n : UInt8}
    {c : List Op} (hn : lenValue l.length = some n) (hc : callsOf calls l = some c) (pre : Bytes) :
    Out (Rd.u8 >>= fun len => Rd.times p len.toNat) pre (.value n :: c) (listMeaning f l) := by
  refine cons (Reads.u8 _ _) ?_
  have : n.toNat = l.length := by
    unfold lenValue at hn
    split at hn
    · cases hn; rw [UInt8.toNat_ofNat', Nat.mod_eq_of_lt (by omega)]
    · cases hn
  rw [this]
  exact times h l c hc _

end Out

/-- The checksum of some bytes. -/
def cks (bs : Bytes) : UInt16 := calcChecksum bs bs.length

namespace Reads
variable {α β : Type}

theorem skip {p : Rd α} {f : α → Rd β} {pre : Bytes} {y : List Op} {a : α} {b : β}
    (h1 : Reads p pre [] a) (h2 : Reads (f a) pre y b) : Reads (p >>= f) pre y b := by
  have := append (x := []) (f := f) (y := y) (b := b) h1 (by simpa [bytesAll] using h2)
  simpa using this

theorem checksum (pre : Bytes) {c : UInt16} (hc : c = cks pre) :
    Reads Rd.checksum pre [] (some c) := by
  intro _ rest
  subst hc
  simp [Rd.checksum, bytesAll]
  rfl

theorem peek {f : UInt8 → Rd β} {pre : Bytes} {v : UInt8} {y : List Op} {b : β}
    (h : Reads (f v) pre (.value v :: y) b) : Reads (Rd.peek >>= f) pre (.value v :: y) b := by
  intro ok rest
  exact h ok rest

theorem typeId_head (t : RTy) :
    ∃ v y, t.typeId = .value v :: y ∧ (v == Codes.tUnit) = false ∧ (v == Codes.tResult) = false := by
  cases t <;> exact ⟨_, _, rfl, by decide, by decide⟩

theorem optType (pre : Bytes) (t : Option RTy) :
    Reads Rd.optType pre (optTypeId t) (t.map RTy.toMeta) := by
  cases t with
  | none =>
    refine peek ?_
    exact cons (u8 _ _) (pure _ _)
  | some t =>
    obtain ⟨v, y, e, h1, -⟩ := typeId_head t
    simp only [optTypeId]
    have := Reads.type pre t
    rw [e] at this ⊢
    refine peek ?_
    simp only [h1, Bool.false_eq_true, ↓reduceIte]
    exact this.map

theorem returnType (pre : Bytes) (r : RetSrc) :
    Reads Rd.returnType pre r.typeId (r.returns, r.throws) := by
  match r with
  | .plain none =>
    refine peek ?_
    exact cons (u8 _ _) (pure _ _)
  | .plain (some t) =>
    obtain ⟨v, y, e, h1, h2⟩ := typeId_head t
    simp only [RetSrc.typeId, optTypeId]
    have := Reads.type pre t
    rw [e] at this ⊢
    refine peek ?_
    simp only [h1, h2, Bool.false_eq_true, ↓reduceIte]
    exact this.map
  | .result t e =>
    refine peek ?_
    refine cons (u8 _ _) (cons (optType _ t).buf ?_)
    exact (optType _ e).buf.map

theorem passBy (pre : Bytes) (p : PassBy) :
    Reads Rd.passBy pre [.bool (p != .value), .bool (p == .mutRef)] p := by
  cases p <;> exact cons (bool _ _) (cons (bool _ _) (pure _ _))

theorem docs (pre : Bytes) (s : String) : Reads Rd.optLongString pre [.longStr s] (docOf s) := by
  have := doc pre s
  have e : docOf s = if s.isEmpty then none else some s := by
    unfold docOf
    by_cases h : s = ""
    · subst h; rfl
    · rw [if_neg h, if_neg (by simpa using h)]
  rw [e]; exact this

theorem discrType (pre : Bytes) (t : Option RTy) :
    Reads Rd.discrType pre (discrTypeCalls t) (t.map RTy.toMeta) := by
  cases t with
  | none => exact cons (bool _ _) (pure _ _)
  | some t => exact cons (bool _ _) (Reads.type _ t).buf.map

theorem shape (pre : Bytes) (s : Shape) : Reads Rd.shape pre [.value s.code] s := by
  match s with
  | .enum => exact cons (u8 _ _) (pure _ _)
  | .error false => exact cons (u8 _ _) (pure _ _)
  | .error true => exact cons (u8 _ _) (pure _ _)

end Reads

namespace Out

/-- Lists of calls in the order they are made. -/
macro "flat" : tactic => `(tactic| simp only [List.append_assoc, List.cons_append, List.nil_append])

theorem input (a : ArgSrc) (c : List Op) (pre : Bytes) (hc : a.calls = some c) :
    Out Rd.input pre c a.meaning := by
  simp only [ArgSrc.calls, Option.map_eq_some_iff] at hc
  obtain ⟨d, hd, rfl⟩ := hc
  flat
  refine cons (Reads.str _ _) (cons (Reads.type _ _).buf ?_)
  refine seq (x := [_, _]) (Reads.passBy _ _) ?_
  exact (optDefault hd _ _).map

theorem field (a : FieldSrc) (c : List Op) (pre : Bytes) (hc : a.calls = some c) :
    Out Rd.field pre c a.meaning := by
  simp only [FieldSrc.calls, Option.map_eq_some_iff] at hc
  obtain ⟨d, hd, rfl⟩ := hc
  flat
  refine cons (Reads.str _ _) (seq (Reads.orig _ _) (cons (Reads.type _ _).buf ?_))
  exact appendMap (optDefault hd _ _) fun a => (Reads.docs _ _).map

theorem variant (a : VariantSrc) (c : List Op) (pre : Bytes) (hc : a.calls = some c) :
    Out Rd.variant pre c a.meaning := by
  simp only [VariantSrc.calls, Option.bind_eq_some_iff, Option.map_eq_some_iff] at hc
  obtain ⟨n, hn, fs, hf, rfl⟩ := hc
  flat
  refine cons (Reads.str _ _) (seq (Reads.orig _ _) ?_)
  refine append (discr _ _) fun d _ => ?_
  exact appendMap (x := .value n :: fs) (counted field hn hf _) fun a => (Reads.docs _ _).map

theorem flatVariant (a : VariantSrc) (c : List Op) (pre : Bytes) (hc : a.flatCalls = some c) :
    Out Rd.flatVariant pre c a.flatMeaning := by
  cases hc
  flat
  exact (Reads.cons (Reads.str _ _) (Reads.append (Reads.orig _ _) (Reads.docs _ _).map)).out

theorem variants {vs : List VariantSrc} {c : List Op} (hc : variantsCalls VariantSrc.calls vs = some c)
    (pre : Bytes) : Out Rd.variants pre c (listMeaning VariantSrc.meaning vs) := by
  simp only [variantsCalls, Option.bind_eq_some_iff, Option.map_eq_some_iff] at hc
  obtain ⟨n, hn, fs, hf, rfl⟩ := hc
  exact counted variant hn hf _

theorem flatVariants {vs : List VariantSrc} {c : List Op}
    (hc : variantsCalls VariantSrc.flatCalls vs = some c) (pre : Bytes) :
    Out Rd.flatVariants pre c (listMeaning VariantSrc.flatMeaning vs) := by
  simp only [variantsCalls, Option.bind_eq_some_iff, Option.map_eq_some_iff] at hc
  obtain ⟨n, hn, fs, hf, rfl⟩ := hc
  exact counted flatVariant hn hf _

end Out
end Verif.Meta
