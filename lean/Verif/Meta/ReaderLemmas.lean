import Verif.Meta.BufferLemmas
import Verif.Meta.Encode
import Verif.Meta.Reader
import Verif.Meta.Spec
import Verif.Wire.Lemmas
/- The reader applied to what the macros emit. -/
namespace Verif.Meta
open Verif
open Verif.Wire (utf8 fromUtf8 fromUtf8_utf8)

mutual
  /-- Every length fits the width it is written with. -/
  def Op.Ok : Op → Prop
    | .str s => (utf8 s).length < 256
    | .longStr s => (utf8 s).length < 65536
    | .buf ops => OkAll ops
    | _ => True
  def OkAll : List Op → Prop
    | [] => True
    | op :: ops => op.Ok ∧ OkAll ops
end

mutual
  theorem Op.ok_of_short (op : Op) (hs : op.Short) (hl : op.bytes.length < 65536) : op.Ok := by
    match op with
    | .str s => simp only [Op.Short] at hs; simp only [Op.Ok]; omega
    | .longStr s =>
      simp only [Op.bytes, List.length_append, length_leBytes] at hl; simp only [Op.Ok]; omega
    | .buf ops =>
      simp only [Op.Short] at hs
      simp only [Op.bytes] at hl
      exact okAll_of_short ops hs hl
    | .value _ => trivial
    | .bool _ => trivial
    | .u32 _ => trivial
  theorem okAll_of_short (ops : List Op) (hs : ShortAll ops) (hl : (bytesAll ops).length < 65536) :
      OkAll ops := by
    match ops with
    | [] => trivial
    | op :: ops =>
      simp only [bytesAll, List.length_append] at hl
      exact ⟨op.ok_of_short hs.1 (by omega), okAll_of_short ops hs.2 (by omega)⟩
end

theorem okAll_append (a b : List Op) : OkAll (a ++ b) ↔ OkAll a ∧ OkAll b := by
  induction a with
  | nil => simp [OkAll]
  | cons x a ih => simp [OkAll, ih, and_assoc]

theorem emit_ok {ops : List Op} {bs : Bytes} (h : emit ops = some bs) :
    OkAll ops ∧ bs = bytesAll ops := by
  obtain ⟨hs, hl, rfl⟩ := (emit_eq ops bs).1 h
  exact ⟨okAll_of_short ops hs (Nat.lt_of_le_of_lt hl (by decide)), rfl⟩

theorem u32_join (v : UInt32) : (UInt8.ofNat (v.toNat % 256)).toUInt32 +
    ((UInt8.ofNat (v.toNat / 2 ^ 8 % 256)).toUInt32 <<< 8) +
    ((UInt8.ofNat (v.toNat / 2 ^ 16 % 256)).toUInt32 <<< 16) +
    ((UInt8.ofNat (v.toNat / 2 ^ 24 % 256)).toUInt32 <<< 24) = v := by
  have hv := v.toNat_lt
  apply UInt32.toNat_inj.1
  simp only [UInt32.toNat_add, UInt32.toNat_shiftLeft, UInt8.toNat_toUInt32, UInt8.toNat_ofNat',
    Nat.shiftLeft_eq, UInt32.reduceToNat]
  simp only [Nat.reducePow, Nat.reduceMod] at *
  omega

/-- Takes the branch for a constant code. -/
macro "pick" : tactic => `(tactic| simp (decide := true) only [↓reduceIte])

/-- Reader `p`, having read `pre` already, reads exactly the bytes of `ops` and returns `a`,
whatever comes after. -/
def Reads {α : Type} (p : Rd α) (pre : Bytes) (ops : List Op) (a : α) : Prop :=
  OkAll ops → ∀ rest, p (pre ++ (bytesAll ops ++ rest)) (bytesAll ops ++ rest) = .ok (a, rest)

namespace Reads
variable {α β : Type}

theorem pure (a : α) (pre : Bytes) : Reads (Pure.pure a : Rd α) pre [] a := fun _ _ => rfl

theorem append {p : Rd α} {f : α → Rd β} {pre : Bytes} {x y : List Op} {a : α} {b : β}
    (h1 : Reads p pre x a) (h2 : Reads (f a) (pre ++ bytesAll x) y b) :
    Reads (p >>= f) pre (x ++ y) b := by
  intro ok rest
  rw [okAll_append] at ok
  have e1 := h1 ok.1 (bytesAll y ++ rest)
  have e2 := h2 ok.2 rest
  rw [bytesAll_append, List.append_assoc]
  show Rd.bind p f _ _ = _
  rw [List.append_assoc] at e2
  simp only [Rd.bind, e1, e2]

theorem cons {p : Rd α} {f : α → Rd β} {pre : Bytes} {op : Op} {y : List Op} {a : α} {b : β}
    (h1 : Reads p pre [op] a) (h2 : Reads (f a) (pre ++ op.bytes) y b) :
    Reads (p >>= f) pre (op :: y) b := by
  have := append (x := [op]) (f := f) (y := y) (b := b) h1 (by simpa [bytesAll] using h2)
  simpa using this

theorem map {p : Rd α} {f : α → β} {pre : Bytes} {x : List Op} {a : α}
    (h : Reads p pre x a) : Reads (p >>= fun a => Pure.pure (f a)) pre x (f a) := by
  have := append (f := fun a => (Pure.pure (f a) : Rd β)) h (pure (f a) _)
  simpa using this

theorem buf {p : Rd α} {pre : Bytes} {x : List Op} {a : α} (h : Reads p pre x a) :
    Reads p pre [.buf x] a := by
  intro ok rest
  simpa [bytesAll, Op.bytes] using h ok.1 rest

theorem u8 (pre : Bytes) (v : UInt8) : Reads Rd.u8 pre [.value v] v := fun _ _ => rfl

theorem bool (pre : Bytes) (v : Bool) : Reads Rd.bool pre [.bool v] v := by
  intro _ rest; cases v <;> rfl

theorem u32 (pre : Bytes) (v : UInt32) : Reads Rd.u32 pre [.u32 v] v := by
  intro _ rest
  simp only [bytesAll, Op.bytes, le4, List.append_nil, List.cons_append, List.nil_append, Rd.u32,
    u32_join]

theorem take (pre : Bytes) (s : String) (rest : Bytes) :
    Rd.take (utf8 s).length pre (utf8 s ++ rest) = .ok (s, rest) := by
  unfold Rd.take
  rw [if_pos (by simp), List.take_left, List.drop_left, fromUtf8_utf8]

theorem str (pre : Bytes) (s : String) : Reads Rd.string pre [.str s] s := by
  intro ok rest
  have ok : (utf8 s).length < 256 := ok.1
  simp only [bytesAll, Op.bytes, List.append_nil, List.cons_append]
  generalize pre ++ _ = init
  show Rd.take (UInt8.ofNat (utf8 s).length).toNat init (utf8 s ++ rest) = _
  rw [UInt8.toNat_ofNat', Nat.mod_eq_of_lt (by omega)]
  exact take ..

theorem longStr (pre : Bytes) (s : String) : Reads Rd.longString pre [.longStr s] s := by
  intro ok rest
  have ok : (utf8 s).length < 65536 := ok.1
  simp only [bytesAll, Op.bytes, List.append_nil, List.append_assoc]
  have e := leNat_leBytes_of_lt (n := 2) (v := (utf8 s).length) (by omega)
  simp only [leBytes] at e ⊢
  simp only [List.cons_append, List.nil_append]
  generalize pre ++ _ = init
  show Rd.take (leNat _) init (utf8 s ++ rest) = _
  rw [e]
  exact take ..

theorem doc (pre : Bytes) (s : String) :
    Reads Rd.optLongString pre [.longStr s] (if s.isEmpty then none else some s) :=
  (longStr pre s).map

theorem orig (pre : Bytes) (o : Option String) : Reads Rd.optString pre (origCalls o) o := by
  cases o with
  | none => exact cons (bool _ _) (pure _ _)
  | some s => exact cons (bool _ _) ((str _ s).map (f := some))

end Reads

theorem toMeta_u8 {t : RTy} (h : t.toMeta = .uint8) : t = .u8 := by
  cases t <;> simp only [RTy.toMeta, reduceCtorEq] at h ⊢
  rename_i t; cases t <;> simp [RTy.toMeta] at h

/-- Nesting depth. -/
def RTy.height : RTy → Nat
  | .custom _ _ t => t.height + 1
  | .option t => t.height + 1
  | .box t => t.height + 1
  | .vec t => t.height + 1
  | .hashMap k v => max k.height v.height + 1
  | .hashSet t => t.height + 1
  | .byteSlice => 1
  | _ => 0

theorem RTy.height_lt (t : RTy) : t.height < (bytesAll t.typeId).length := by
  induction t with
  | custom m n t ih | option t ih | box t ih | vec t ih | hashSet t ih =>
    simp [RTy.height, RTy.typeId, bytesAll, Op.bytes]; omega
  | hashMap k v ik iv => simp [RTy.height, RTy.typeId, bytesAll, Op.bytes]; omega
  | _ => simp [RTy.height, RTy.typeId, bytesAll, Op.bytes]

namespace Reads

theorem kind (pre : Bytes) (k : TraitKind) : Reads Rd.traitKind pre [.value k.code] k := by
  cases k <;> exact cons (u8 _ _) (pure _ _)

theorem typeN (t : RTy) : ∀ (n : Nat) (pre : Bytes), t.height < n →
    Reads (Rd.typeN n) pre t.typeId t.toMeta := by
  induction t with
  | custom m s t ih =>
    intro n pre h
    obtain ⟨n, rfl⟩ : ∃ k, n = k + 1 := ⟨n - 1, by omega⟩
    simp only [RTy.height] at h
    refine cons (u8 _ _) ?_
    pick
    exact cons (str _ _) (cons (str _ _) (ih _ _ (by omega)).buf.map)
  | option t ih | box t ih | hashSet t ih =>
    intro n pre h
    obtain ⟨n, rfl⟩ : ∃ k, n = k + 1 := ⟨n - 1, by omega⟩
    simp only [RTy.height] at h
    refine cons (u8 _ _) ?_
    pick
    exact (ih _ _ (by omega)).buf.map
  | vec t ih =>
    intro n pre h
    obtain ⟨n, rfl⟩ : ∃ k, n = k + 1 := ⟨n - 1, by omega⟩
    simp only [RTy.height] at h
    refine cons (u8 _ _) ?_
    pick
    refine cons (ih _ _ (by omega)).buf ?_
    by_cases hu : t = .u8
    · subst hu
      exact pure _ _
    · have e : (RTy.vec t).toMeta = .sequence t.toMeta := by
        cases t <;> first | rfl | exact absurd rfl hu
      rw [e, if_neg fun h => hu (toMeta_u8 h)]
      exact pure _ _
  | hashMap k v ik iv =>
    intro n pre h
    obtain ⟨n, rfl⟩ : ∃ k, n = k + 1 := ⟨n - 1, by omega⟩
    simp only [RTy.height] at h
    refine cons (u8 _ _) ?_
    pick
    exact cons (ik _ _ (by omega)).buf (iv _ _ (by omega)).buf.map
  | byteSlice =>
    intro n pre h
    obtain ⟨n, rfl⟩ : ∃ k, n = k + 2 := ⟨n - 2, by simp only [RTy.height] at h; omega⟩
    exact cons (u8 _ _) (cons (buf (cons (u8 _ _) (pure _ _))) (pure _ _))
  | object m s | callbackInterface m s | record m s | enum m s =>
    intro n pre h
    obtain ⟨n, rfl⟩ : ∃ k, n = k + 1 := ⟨n - 1, by omega⟩
    refine cons (u8 _ _) ?_
    pick
    exact cons (str _ _) (str _ _).map
  | traitObject m s k =>
    intro n pre h
    obtain ⟨n, rfl⟩ : ∃ k, n = k + 1 := ⟨n - 1, by omega⟩
    refine cons (u8 _ _) ?_
    pick
    exact cons (str _ _) (cons (str _ _) (kind _ _).map)
  | _ =>
    intro n pre h
    obtain ⟨n, rfl⟩ : ∃ k, n = k + 1 := ⟨n - 1, by omega⟩
    exact cons (u8 _ _) (pure _ _)

theorem type (pre : Bytes) (t : RTy) : Reads Rd.type pre t.typeId t.toMeta := by
  intro ok rest
  exact typeN t _ pre (by have := t.height_lt; simp; omega) ok rest

end Reads
end Verif.Meta
